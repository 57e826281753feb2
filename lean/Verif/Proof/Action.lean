import Verif.Proof.ActionParts

/-! # What the parser of actions gives -/

namespace Verif.Action
open Verif Verif.Text Verif.Regex Verif.Section Verif.Recognition Verif.Spec Verif.Spec.Recognition Verif.Spec.Payload Verif.Spec.Action Verif.Props
open Verif.Payload (World steps loop lastOf outcome sourceOf ignored headersResult payloadResult parts_iff parts_uniq parse_item oneSignature_eq one_eq
  itemResult steps_nil_of_false dropWhile_false strays_iff maybe_iff level_iff headers_parse payload_parse headersRead_of headersRead_total
  loop_cons headerResult parse_header until_iff textBlock_iff isText_false remainder_iff)
open Verif.References (Example onLast)

/-! ## Relations -/

theorem loop_strays (ty : Node → SectionType) (l : List Node) : ∀ (last : SectionType) (d : Data),
    loop (fun n _ (d : Data) => (.ok (d.warn [.payload (ignored n)]) : Except Stop Data)) ty l last d =
      .ok (d.warn ((l.map ignored).map .payload)) := by
  induction l with
  | nil => intro last d; simp [loop, Data.warn]
  | cons n l ih => intro last d; rw [loop]; simp only; rw [ih]; simp [Data.warn]

/-- The data after a relation. -/
def relationResult (sig : Node) (blocks : List Node) (d : Data) : Data :=
  (match relationIdentifier sig.text with
  | some i => { d with action := { d.action with relation := i } }
  | none => d.warn [.relation]).warn ((blocks.map ignored).map .payload)

theorem relation_parse (child : SectionType → Parse Data) {siblings : List Node} {i : Nat} {n sig : Node} {blocks : List Node}
    (parent : SectionType) (outer : List SectionType) (d : Data) (hi : siblings[i]? = some n) (hk : n.kind = .listItem)
    (hr : Payload.read n = sig :: blocks) :
    parseSection relationOwn .list child siblings i ⟨.relation :: parent :: outer, d⟩ =
      .ok (i + 1, ⟨.relation :: parent :: outer, relationResult sig blocks d⟩) := by
  rw [parse_item (top := .relation) (sg := fun n d => relationSignature n ⟨.relation :: parent :: outer, d⟩) (ds := fun _ d => .ok d)
    (cs := fun _ d => .ok d) (f := fun n _ d => .ok (d.warn [.payload (ignored n)])) (fin := id) d hi hk hr (fun _ => rfl)
    (fun ns j m d h => oneSignature_eq h) (fun _ _ _ _ _ h => by cases h) (fun _ _ _ _ _ h => by cases h) (fun _ _ _ => rfl) ?_
    (fun _ _ _ => rfl)]
  · unfold itemResult
    have e : relationSignature sig ⟨.relation :: parent :: outer, d⟩ = .ok (match relationIdentifier sig.text with
        | some i => { d with action := { d.action with relation := i } }
        | none => d.warn [.relation]) := by
      unfold relationSignature
      cases relationIdentifier sig.text <;> rfl
    simp only [relationOwn, steps_nil_of_false, dropWhile_false, e, loop_strays]
    rfl
  · intro ns j m last d h
    unfold nestedStep
    simp only [relationOwn, ne_eq, not_true_eq_false, if_false, Bool.true_or, if_true]
    exact one_eq (f := fun n (pd : PD Data) => .ok (pd.data.warn [.payload (ignored n)])) h

/-! ## The blocks of an action -/

/-- A request or a response. -/
def payloadData (w : World) (parent : SectionType) (outer : List SectionType) (t : SectionType) (sig : Node) (blocks : List Node) (d : Data) :
    Except Stop Data :=
  match payloadResult w t (parent :: outer) sig blocks with
  | .error e => .error e
  | .ok r => .ok (addPayload t r.payload r.warnings d)

/-- The headers of an action. -/
def headersData (w : World) (parent : SectionType) (sig : Node) (blocks : List Node) (d : Data) : Data :=
  let r := headersResult w parent sig blocks ⟨{ headers := d.action.headers }, []⟩
  ⟨{ d.action with headers := r.payload.headers }, d.warnings ++ r.warnings.map .payload ++ [.deprecatedHeaders]⟩

/-- What a block after the description gives. -/
def sectionData (w : World) (parent : SectionType) (outer : List SectionType) (n : Node) (last : SectionType) (d : Data) : Except Stop Data :=
  match recognise.actionNested n, Payload.read n with
  | .relation, sig :: blocks => .ok (relationResult sig blocks d)
  | .parameters, _ =>
    let r := w.parameters n d.action.parameters
    .ok ⟨{ d.action with parameters := r.1 }, d.warnings ++ r.2.map .payload⟩
  | .attributes, _ =>
    let r := w.attributes n d.action.attributes
    .ok ⟨{ d.action with attributes := r.1 }, d.warnings ++ r.2.map .payload⟩
  | .headers, sig :: blocks => .ok (headersData w parent sig blocks d)
  | .request, sig :: blocks => payloadData w parent outer .request sig blocks d
  | .requestBody, sig :: blocks => payloadData w parent outer .requestBody sig blocks d
  | .response, sig :: blocks => payloadData w parent outer .response sig blocks d
  | .responseBody, sig :: blocks => payloadData w parent outer .responseBody sig blocks d
  | _, _ => actionUnexpected w last n ⟨.undefined :: parent :: outer, d⟩

theorem item_parts {n : Node} (h : ∃ s, ItemLine n s ∧ True) : ∃ sig blocks, Parts n sig blocks := by
  rw [itemLine_iff] at h
  obtain ⟨sig, blocks, hr⟩ := Payload.read_ne h.1.2
  exact ⟨sig, blocks, parts_iff.mpr ⟨h.1.1, hr⟩⟩

theorem section_parts {n : Node} {t : SectionType} (h : SectionOf n t) : ∃ sig blocks, Parts n sig blocks := by
  cases h with
  | relation h => obtain ⟨s, h, _⟩ := h; exact item_parts ⟨s, h, trivial⟩
  | parameters h => obtain ⟨s, h, _⟩ := h; exact item_parts ⟨s, h, trivial⟩
  | headers h => obtain ⟨s, h, _⟩ := h; exact item_parts ⟨s, h, trivial⟩
  | attributes h => obtain ⟨s, h, _⟩ := h; exact item_parts ⟨s, h, trivial⟩
  | request h => obtain ⟨s, h, _⟩ := h; exact item_parts ⟨s, h, trivial⟩
  | shortRequest h => obtain ⟨s, h, _⟩ := h; exact item_parts ⟨s, h, trivial⟩
  | response h => obtain ⟨s, h, _⟩ := h; exact item_parts ⟨s, h, trivial⟩
  | shortResponse h => obtain ⟨s, h, _⟩ := h; exact item_parts ⟨s, h, trivial⟩

theorem go_other {m : Node} (hm : recognise.actionNested m = .undefined) :
    go m = if recognise.assetType m ≠ .undefined then true else recognise.isUnexpected actionUpper m := by
  unfold go
  rw [hm]
  rfl

theorem go_iff' {m : Node} (hm : recognise.actionNested m ≠ .undefined) :
    go m = (decide (recognise.actionNested m ≠ .model) && decide (recognise.actionNested m ≠ .modelBody)) := by
  unfold go
  simp only [hm, ne_eq, not_false_eq_true, if_true]

theorem action_step (w : World) (parent : SectionType) (outer : List SectionType) (ns : List Node) (j : Nat) (m : Node)
    (last : SectionType) (d : Data) (h : ns[j]? = some m) (hg : go m = true) :
    nestedStep (actionOwn w) false (fun t => (actionChild t).parse) ns m j last ⟨(actionOwn w).nestedType m :: parent :: outer, d⟩ =
      outcome j ((actionOwn w).nestedType m :: parent :: outer) (sectionData w parent outer m last d) := by
  have hu : ∀ t, SectionOf m t → ∃ sig blocks, Parts m sig blocks ∧ m.kind = .listItem ∧ Payload.read m = sig :: blocks := by
    intro t hn
    obtain ⟨sig, blocks, hp⟩ := section_parts hn
    exact ⟨sig, blocks, hp, parts_iff.mp hp⟩
  unfold nestedStep sectionData
  simp only [actionOwn, Bool.false_or]
  rcases nested_cases m with ⟨h1, hm⟩ | ⟨h1, hm⟩ | ⟨h1, hm⟩ | ⟨h1, hm⟩ | ⟨h1, h2, hm⟩ | ⟨h1, h2, hm⟩ | ⟨h1, h2, hm⟩ | ⟨h1, h2, hm⟩ | ⟨_, ⟨h1, hm | hm⟩ | ⟨h1, hm⟩⟩
  · obtain ⟨sig, blocks, hp, hk, hr⟩ := hu _ (.relation h1)
    simp only [hm, hr, actionNestedSection, h, PD.top, ne_eq, reduceCtorEq, not_false_eq_true, if_true]
    rw [show (actionChild .relation).parse ns j ⟨.relation :: parent :: outer, d⟩ = _ from relation_parse _ parent outer d h hk hr]
    rfl
  · simp only [hm, actionNestedSection, h, PD.top, PD.set, ne_eq, reduceCtorEq, not_false_eq_true, if_true]
    rfl
  · obtain ⟨sig, blocks, hp, hk, hr⟩ := hu _ (.headers h1)
    simp only [hm, hr, actionNestedSection, h, PD.top, PD.set, ne_eq, reduceCtorEq, not_false_eq_true, if_true]
    rw [show (Payload.payloadChild w .headers).parse ns j ⟨.headers :: parent :: outer, ⟨{ headers := d.action.headers }, []⟩⟩ = _ from
      headers_parse w _ parent outer _ h hk hr]
    rfl
  · simp only [hm, actionNestedSection, h, PD.top, PD.set, ne_eq, reduceCtorEq, not_false_eq_true, if_true]
    rfl
  · obtain ⟨sig, blocks, hp, hk, hr⟩ := hu _ (.request h1 h2)
    simp only [hm, hr, actionNestedSection, h, PD.top, PD.set, ne_eq, reduceCtorEq, not_false_eq_true, if_true, List.tail_cons]
    rw [payload_parse w .request (parent :: outer) h hk hr]
    unfold payloadData
    cases payloadResult w .request (parent :: outer) sig blocks <;> rfl
  · obtain ⟨sig, blocks, hp, hk, hr⟩ := hu _ (.shortRequest h1 h2)
    simp only [hm, hr, actionNestedSection, h, PD.top, PD.set, ne_eq, reduceCtorEq, not_false_eq_true, if_true, List.tail_cons]
    rw [payload_parse w .requestBody (parent :: outer) h hk hr]
    unfold payloadData
    cases payloadResult w .requestBody (parent :: outer) sig blocks <;> rfl
  · obtain ⟨sig, blocks, hp, hk, hr⟩ := hu _ (.response h1 h2)
    simp only [hm, hr, actionNestedSection, h, PD.top, PD.set, ne_eq, reduceCtorEq, not_false_eq_true, if_true, List.tail_cons]
    rw [payload_parse w .response (parent :: outer) h hk hr]
    unfold payloadData
    cases payloadResult w .response (parent :: outer) sig blocks <;> rfl
  · obtain ⟨sig, blocks, hp, hk, hr⟩ := hu _ (.shortResponse h1 h2)
    simp only [hm, hr, actionNestedSection, h, PD.top, PD.set, ne_eq, reduceCtorEq, not_false_eq_true, if_true, List.tail_cons]
    rw [payload_parse w .responseBody (parent :: outer) h hk hr]
    unfold payloadData
    cases payloadResult w .responseBody (parent :: outer) sig blocks <;> rfl
  · exfalso; simp [go, hm] at hg
  · exfalso; simp [go, hm] at hg
  · have hx : (if recognise.assetType m ≠ .undefined then true else recognise.isUnexpected actionUpper m) = true := by
      have e := go_other hm
      rw [hg] at e
      exact e.symm
    simp only [ne_eq] at hx
    simp only [hm, ne_eq, not_true_eq_false, if_false, hx, if_true]
    exact one_eq (f := actionUnexpected w last) h

theorem action_stop (w : World) (parent : SectionType) (outer : List SectionType) (ns : List Node) (j : Nat) (m : Node)
    (last : SectionType) (d : Data) (h : ns[j]? = some m) (hg : go m = false) :
    nestedStep (actionOwn w) false (fun t => (actionChild t).parse) ns m j last ⟨(actionOwn w).nestedType m :: parent :: outer, d⟩ =
      .ok (j, ⟨(actionOwn w).nestedType m :: parent :: outer, d⟩) := by
  unfold nestedStep
  simp only [actionOwn, Bool.false_or]
  by_cases hu : recognise.actionNested m = .undefined
  · have hx := go_other hu
    rw [hg] at hx
    simp only [ne_eq] at hx
    simp only [hu, ne_eq, not_true_eq_false, if_false, ← hx, Bool.false_eq_true]
  · have : recognise.actionNested m = .model ∨ recognise.actionNested m = .modelBody := by
      rw [go_iff' hu] at hg
      by_cases h1 : recognise.actionNested m = .model
      · exact .inl h1
      · simp [h1] at hg; exact .inr hg
    simp only [ne_eq, hu, not_false_eq_true, if_true]
    rcases this with hm | hm <;> simp only [hm, actionNestedSection, h, PD.top]

/-! ## One block -/

variable {w : World} {parent : SectionType} {outer : List SectionType}

theorem sectionData_other {n : Node} (last : SectionType) (d : Data) (hn : ¬ ActionPart n) :
    sectionData w parent outer n last d = actionUnexpected w last n ⟨.undefined :: parent :: outer, d⟩ := by
  rw [part_iff, Decidable.not_not] at hn
  simp only [List.mem_cons, List.not_mem_nil, or_false] at hn
  unfold sectionData
  rcases hn with h | h | h <;> rw [h]

theorem payload_types {t : SectionType} (h : IsRequest t ∨ IsResponse t) : ∃ k b, (k, b, t) ∈ payloadTypes := by
  rcases h with (rfl | rfl) | rfl | rfl <;> simp [payloadTypes]

theorem sectionData_payload {n sig : Node} {blocks : List Node} {t : SectionType} (last : SectionType) (d : Data) (hs : SectionOf n t)
    (ht : IsRequest t ∨ IsResponse t) (hp : Parts n sig blocks) :
    sectionData w parent outer n last d = payloadData w parent outer t sig blocks d := by
  unfold sectionData
  rw [(section_iff (section_type hs)).mpr hs, (parts_iff.mp hp).2]
  rcases ht with (rfl | rfl) | rfl | rfl <;> rfl

theorem addPayload_eq {t : SectionType} {p : References.Payload} {a : Action} {vs : List Warning} {ws : List Payload.Warning} {e : Example}
    {es : List Example} {b c : List Warning} (ht : IsRequest t ∨ IsResponse t) (h1 : Enters t p a.examples e es) (h2 : Twice t a.method p e b)
    (h3 : Forbidden t a.method p c) : addPayload t p ws ⟨a, vs⟩ = ⟨{ a with examples := es }, vs ++ (ws.map .payload ++ b ++ c)⟩ := by
  obtain ⟨rfl, rfl⟩ := (enters_iff ht).mp h1
  rw [twice_iff] at h2
  rw [forbidden_iff] at h3
  subst h2 h3
  unfold addPayload checkPayload
  simp only [List.append_assoc]
  cases Http.checkMethod a.method p.name p.body <;> rfl

theorem kind_of {n : Node} {t : SectionType} (h : SectionOf n t) (hr : RequestItem n ∨ ResponseItem n) : IsRequest t ∨ IsResponse t := by
  have no : ∀ {i : Item}, Is i n → i ∈ [Item.request, .response] := by
    intro i hi
    rcases hr with hr | hr
    · rw [is_one hi (show Is .request n from hr)]; simp
    · rw [is_one hi (show Is .response n from hr)]; simp
  cases h with
  | relation h => have := no (i := .relation) h; simp at this
  | parameters h => have := no (i := .parameters) h; simp at this
  | headers h => have := no (i := .headers) h; simp at this
  | attributes h => have := no (i := .attributes) h; simp at this
  | request => exact .inl (.inl rfl)
  | shortRequest => exact .inl (.inr rfl)
  | response => exact .inr (.inl rfl)
  | shortResponse => exact .inr (.inr rfl)

theorem continued_response {last : SectionType} {c : Bytes} {es es' : List Example} (hl : IsResponse last) :
    Continued last c es es' ↔ (es.getLast?.any fun e => !e.responses.isEmpty) = true ∧ es' = onLast (continueResponse c) es := by
  have hn : ¬ IsRequest last := by rcases hl with rfl | rfl <;> (rintro (h | h) <;> cases h)
  constructor
  · intro h
    cases h with
    | response h => rw [onLast_append]; simp [continueResponse, continueLast_append]
    | request h => exact absurd h hn
  · rintro ⟨h, rfl⟩
    rcases List.eq_nil_or_concat es with rfl | ⟨es, ⟨rs, ss⟩, rfl⟩
    · simp at h
    · rw [List.concat_eq_append] at h ⊢
      rcases List.eq_nil_or_concat ss with rfl | ⟨ss, s, rfl⟩
      · simp at h
      · rw [List.concat_eq_append, onLast_append]
        simp only [continueResponse, continueLast_append]
        exact .response hl

theorem continued_request {last : SectionType} {c : Bytes} {es es' : List Example} (hl : IsRequest last) :
    Continued last c es es' ↔ (es.getLast?.any fun e => !e.requests.isEmpty) = true ∧ es' = onLast (continueRequest c) es := by
  have hn : ¬ IsResponse last := by rcases hl with rfl | rfl <;> (rintro (h | h) <;> cases h)
  constructor
  · intro h
    cases h with
    | request h => rw [onLast_append]; simp [continueRequest, continueLast_append]
    | response h => exact absurd h hn
  · rintro ⟨h, rfl⟩
    rcases List.eq_nil_or_concat es with rfl | ⟨es, ⟨rs, ss⟩, rfl⟩
    · simp at h
    · rw [List.concat_eq_append] at h ⊢
      rcases List.eq_nil_or_concat rs with rfl | ⟨ss, s, rfl⟩
      · simp at h
      · rw [List.concat_eq_append, onLast_append]
        simp only [continueRequest, continueLast_append]
        exact .request hl

theorem continued_any {last : SectionType} {c c' : Bytes} {es es' : List Example} (h : Continued last c es es') : ∃ es'', Continued last c' es es'' := by
  cases h with
  | response h => exact ⟨_, .response h⟩
  | request h => exact ⟨_, .request h⟩

theorem continued_place {last : SectionType} {c : Bytes} {es es' : List Example} (h : Continued last c es es') : IsResponse last ∨ IsRequest last := by
  cases h with
  | response h => exact .inl h
  | request h => exact .inr h

/-- Text that continues a payload. -/
theorem unexpected_text {n : Node} {last : SectionType} {ctx : List SectionType} {a : Action} {vs : List Warning} {c : Bytes} {ws : List Payload.Warning} {es : List Example}
    (ht : TextBlock n) (hc : Continued last c a.examples es) (hd : dangling w last .undefined n = .ok (c, ws)) :
    actionUnexpected w last n ⟨.undefined :: ctx, ⟨a, vs⟩⟩ = .ok ⟨{ a with examples := es }, vs ++ ws.map .payload⟩ := by
  unfold actionUnexpected
  simp only [PD.top, hd]
  by_cases hr : IsResponse last
  · obtain ⟨h1, rfl⟩ := (continued_response hr).mp hc
    rw [if_pos ⟨ht, Or.symm hr, h1⟩]
  · have hq : IsRequest last := (continued_place hc).resolve_left hr
    obtain ⟨h1, rfl⟩ := (continued_request hq).mp hc
    rw [if_neg (fun h => hr (Or.symm h.2.1)), if_pos ⟨ht, Or.symm hq, h1⟩]

/-- A block that continues nothing. -/
theorem unexpected_other {n : Node} {last : SectionType} {ctx : List SectionType} {a : Action} {vs : List Warning}
    (ht : ¬ (TextBlock n ∧ ∃ es, Continued last [] a.examples es)) :
    actionUnexpected w last n ⟨ctx, ⟨a, vs⟩⟩ = .ok ⟨a, vs ++ (if recognise.assetType n ≠ .undefined then [.indented (recognise.assetType n)]
      else [.payload (ignored n)])⟩ := by
  unfold actionUnexpected
  simp only
  rw [if_neg, if_neg]
  · split <;> rfl
  · rintro ⟨h1, h2, h3⟩
    exact ht ⟨h1, _, (continued_request (Or.symm h2)).mpr ⟨h3, rfl⟩⟩
  · rintro ⟨h1, h2, h3⟩
    exact ht ⟨h1, _, (continued_response (Or.symm h2)).mpr ⟨h3, rfl⟩⟩

theorem level_pos (t : SectionType) : 1 ≤ Payload.codeBlockLevel t := by
  unfold Payload.codeBlockLevel
  split <;> decide

theorem level_two {t : SectionType} (h : IsResponse t ∨ IsRequest t) : 2 ≤ Payload.codeBlockLevel t := by
  rcases h with (rfl | rfl) | rfl | rfl <;> decide

theorem not_item {n : Node} (h : n.kind ≠ .listItem) : ¬ BodyItem n ∧ ¬ SchemaItem n := by
  constructor
  · rintro ⟨s, h', _⟩; exact h ((itemLine_iff (P := fun _ => True)).mp ⟨s, h', trivial⟩).1.1
  · rintro ⟨s, h', _⟩; exact h ((itemLine_iff (P := fun _ => True)).mp ⟨s, h', trivial⟩).1.1

theorem part_of {n : Node} {last : SectionType} {a a' : Action} {vs ws : List Warning}
    (h : Part w parent last n a a' ws) : sectionData w parent outer n last ⟨a, vs⟩ = .ok ⟨a', vs ++ ws⟩ := by
  cases h with
  | relation h1 h2 h3 h4 =>
    rw [strays_iff] at h4
    subst h4
    unfold sectionData
    rw [(section_iff (t := .relation) (by decide)).mpr (.relation h1), (parts_iff.mp h2).2]
    unfold Identified at h3
    rw [← C79_identifier] at h3
    simp [relationResult, h3, Data.warn]
  | illegal h1 h2 h3 h4 =>
    rw [strays_iff] at h4
    subst h4
    unfold sectionData
    rw [(section_iff (t := .relation) (by decide)).mpr (.relation h1), (parts_iff.mp h2).2]
    rename_i sig blocks
    have : relationIdentifier sig.text = none := by
      cases hc : relationIdentifier sig.text with
      | none => rfl
      | some i => exact absurd ((C79_identifier _ _).mp hc) (h3 i)
    simp [relationResult, this, Data.warn]
  | parameters h1 h2 =>
    unfold sectionData
    rw [(section_iff (t := .parameters) (by decide)).mpr (.parameters h1)]
    simp only [h2]
  | attributes h1 h2 =>
    unfold sectionData
    rw [(section_iff (t := .attributes) (by decide)).mpr (.attributes h1)]
    simp only [h2]
  | headers h1 h2 =>
    unfold sectionData
    obtain ⟨sig, blocks, hp⟩ := section_parts (.headers h1)
    rw [(section_iff (t := .headers) (by decide)).mpr (.headers h1), (parts_iff.mp hp).2]
    have := headersRead_of hp (p := { headers := a.headers }) (vs := []) h2
    simp only [headersData, this, List.nil_append, List.append_assoc]
  | payload h1 h2 h3 h4 h5 h6 h7 =>
    have ht := kind_of h2 h1
    rw [sectionData_payload _ _ h2 ht h3]
    unfold payloadData
    rw [(Payload.read_iff (payload_types ht)).mpr ⟨_, _, h4, rfl⟩]
    simp only
    rw [addPayload_eq ht h5 h6 h7]
  | @code _ _ k h1 h2 h3 h4 h5 h6 h7 =>
    rw [sectionData_other _ _ h1]
    rw [maybe_iff] at h6
    rw [level_iff] at h7
    subst h6
    rw [unexpected_text (c := closed n.text) (ws := Payload.possibleReference .undefined n ++ [.dangling k]) (.inr h2) h5]
    · simp
    · unfold dangling
      rw [if_pos h2, if_pos h2]
      cases ht : twoNewLines n.text with
      | none => rcases Payload.twoNewLines_none.mp ht with h | h <;> contradiction
      | some r =>
        have := level_two (continued_place h5)
        simp only [Payload.twoNewLines_closed ht, ← h7, Nat.add_sub_cancel]
        rw [if_neg (by omega)]
  | @paragraph v _ _ k h1 h2 h3 h4 h5 h6 h7 h8 =>
    rw [sectionData_other _ _ h1]
    rw [maybe_iff] at h7
    rw [level_iff] at h8
    subst h7
    rw [unexpected_text (c := closed v) (ws := Payload.possibleReference .undefined n ++ [.dangling k]) (.inl h2) h6]
    · simp
    · unfold dangling
      rw [if_neg (by rw [h2]; decide), if_neg (by rw [h2]; decide), sourceOf, h3]
      cases ht : twoNewLines v with
      | none => rcases Payload.twoNewLines_none.mp ht with h | h <;> contradiction
      | some r =>
        have := level_pos last
        simp only [Payload.twoNewLines_closed ht, ← h8]
        rw [if_neg (by omega)]
  | body h1 h2 =>
    have hk : ¬ (TextBlock n ∧ ∃ es, Continued last [] a.examples es) := by
      rintro ⟨h, _⟩
      exact (not_item (by rcases h with h | h <;> rw [h] <;> decide)).1 h2
    rw [sectionData_other _ _ h1, unexpected_other hk, (asset_type n).1.mpr h2]
    rfl
  | schema h1 h2 =>
    have hk : ¬ (TextBlock n ∧ ∃ es, Continued last [] a.examples es) := by
      rintro ⟨h, _⟩
      exact (not_item (by rcases h with h | h <;> rw [h] <;> decide)).2 h2
    rw [sectionData_other _ _ h1, unexpected_other hk, (asset_type n).2.1.mpr h2]
    rfl
  | ignored h1 h2 h3 h4 h5 =>
    rw [strays_iff] at h5
    subst h5
    have hu : recognise.assetType n = .undefined := by
      rcases (asset_type n).2.2 with h | h | h
      · exact absurd ((asset_type n).1.mp h) h2
      · exact absurd ((asset_type n).2.1.mp h) h3
      · exact h
    rw [sectionData_other _ _ h1, unexpected_other h4, hu]
    rfl

theorem part_exists {n : Node} {last : SectionType} {a : Action} {vs : List Warning} {d : Data}
    (h : sectionData w parent outer n last ⟨a, vs⟩ = .ok d) : ∃ a' ws, Part w parent last n a a' ws := by
  have pay : ∀ {t}, SectionOf n t → RequestItem n ∨ ResponseItem n → ∃ a' ws, Part w parent last n a a' ws := by
    intro t hs hr
    obtain ⟨sig, blocks, hp⟩ := section_parts hs
    have ht := kind_of hs hr
    rw [sectionData_payload _ _ hs ht hp] at h
    unfold payloadData at h
    cases hc : payloadResult w t (parent :: outer) sig blocks with
    | error e => rw [hc] at h; cases h
    | ok r =>
      obtain ⟨p, ws, hr', -⟩ := (Payload.read_iff (payload_types ht)).mp hc
      exact ⟨_, _, .payload hr hs hp hr' ((enters_iff ht).mpr ⟨rfl, rfl⟩) (twice_iff.mpr rfl) (forbidden_iff.mpr rfl)⟩
  by_cases hn : ActionPart n
  · obtain ⟨t, hs⟩ := hn
    cases hs with
    | relation h1 =>
      obtain ⟨sig, blocks, hp⟩ := section_parts (.relation h1)
      by_cases hi : ∃ i, Identified sig.text i
      · obtain ⟨i, hi⟩ := hi
        exact ⟨_, _, .relation h1 hp hi (strays_iff.mpr rfl)⟩
      · exact ⟨_, _, .illegal h1 hp (fun i h => hi ⟨i, h⟩) (strays_iff.mpr rfl)⟩
    | parameters h1 => exact ⟨_, _, .parameters h1 rfl⟩
    | attributes h1 => exact ⟨_, _, .attributes h1 rfl⟩
    | headers h1 =>
      obtain ⟨sig, blocks, hp⟩ := section_parts (.headers h1)
      obtain ⟨hs', ws, h⟩ := headersRead_total w parent hp a.headers
      exact ⟨_, _, .headers h1 h⟩
    | request h1 h2 => exact pay (.request h1 h2) (.inl h1)
    | shortRequest h1 h2 => exact pay (.shortRequest h1 h2) (.inl h1)
    | response h1 h2 => exact pay (.response h1 h2) (.inr h1)
    | shortResponse h1 h2 => exact pay (.shortResponse h1 h2) (.inr h1)
  · by_cases hc : TextBlock n ∧ ∃ es, Continued last [] a.examples es
    · obtain ⟨ht, es, hc⟩ := hc
      rw [sectionData_other _ _ hn] at h
      have hd : ∃ r, dangling w last .undefined n = .ok r := by
        unfold actionUnexpected at h
        simp only [PD.top] at h
        by_cases hr : IsResponse last
        · obtain ⟨h1, -⟩ := (continued_response hr).mp hc
          rw [if_pos ⟨ht, Or.symm hr, h1⟩] at h
          cases hd : dangling w last .undefined n with
          | error e => rw [hd] at h; cases h
          | ok r => exact ⟨r, rfl⟩
        · have hq : IsRequest last := (continued_place hc).resolve_left hr
          obtain ⟨h1, -⟩ := (continued_request hq).mp hc
          rw [if_neg (fun h => hr (Or.symm h.2.1)), if_pos ⟨ht, Or.symm hq, h1⟩] at h
          cases hd : dangling w last .undefined n with
          | error e => rw [hd] at h; cases h
          | ok r => exact ⟨r, rfl⟩
      obtain ⟨r, hd⟩ := hd
      have hl := level_two (continued_place hc)
      unfold dangling at hd
      by_cases hk : n.kind = .code
      · rw [if_pos hk] at hd
        cases h2 : twoNewLines n.text with
        | none => rw [h2] at hd; cases hd
        | some r =>
          have hne : ¬ (n.text = [] ∨ n.text = [asc '\n']) := by rw [← Payload.twoNewLines_none, h2]; simp
          rw [not_or] at hne
          obtain ⟨es', hc'⟩ := continued_any (c' := closed n.text) hc
          exact ⟨_, _, .code (k := Payload.codeBlockLevel last - 1) hn hk hne.1 hne.2 hc' (maybe_iff.mpr rfl) (level_iff.mpr (by omega))⟩
      · have hp : n.kind = .paragraph := ht.resolve_right hk
        rw [if_neg hk, sourceOf] at hd
        generalize hv : ByteBuffer.mapBytesRangeSet n.sourceMap w.source = v at hd
        cases h2 : twoNewLines v with
        | none => rw [h2] at hd; cases hd
        | some r =>
          have hne : ¬ (v = [] ∨ v = [asc '\n']) := by rw [← Payload.twoNewLines_none, h2]; simp
          rw [not_or] at hne
          obtain ⟨es', hc'⟩ := continued_any (c' := closed v) hc
          exact ⟨_, _, .paragraph hn hp hv hne.1 hne.2 hc' (maybe_iff.mpr rfl) (level_iff.mpr rfl)⟩
    · by_cases hb : BodyItem n
      · exact ⟨_, _, .body hn hb⟩
      · by_cases hs : SchemaItem n
        · exact ⟨_, _, .schema hn hs⟩
        · exact ⟨_, _, .ignored hn hb hs hc (strays_iff.mpr rfl)⟩

theorem part_eq {n : Node} {last : SectionType} {a : Action} {vs : List Warning} {d : Data} :
    sectionData w parent outer n last ⟨a, vs⟩ = .ok d ↔ ∃ a' ws, Part w parent last n a a' ws ∧ d = ⟨a', vs ++ ws⟩ := by
  constructor
  · intro h
    obtain ⟨q, ws, hp⟩ := part_exists h
    refine ⟨q, ws, hp, ?_⟩
    rw [part_of hp] at h
    cases h; rfl
  · rintro ⟨q, ws, hp, rfl⟩
    exact part_of hp

/-! ## All blocks -/

theorem leaves_iff {n : Node} {ns : List Node} {last place : SectionType} (hg : go n = true) (h : Leaves last n ns place)
    (hns : ns ≠ []) : place = lastOf recognise.actionNested n ns last := by
  have hu : ¬ ActionPart n → recognise.actionNested n = .undefined := by
    intro hn
    rw [part_iff, Decidable.not_not] at hn
    simp only [List.mem_cons, List.not_mem_nil, or_false] at hn
    rcases hn with h | h | h
    · exact h
    · exfalso; simp [go, h] at hg
    · exfalso; simp [go, h] at hg
  unfold lastOf
  cases h with
  | part h =>
    have ht := section_type h
    have e := (section_iff ht).mpr h
    rw [if_pos ⟨hns, .inl (by rw [e]; intro h; rw [h] at ht; simp at ht)⟩, e]
  | text h1 h2 h3 =>
    have h1 := hu h1
    rw [if_neg]
    rintro ⟨_, h | h⟩
    · exact h h1
    · rw [h2, (textBlock_iff _).mpr h3] at h; cases h
  | other h1 h2 =>
    rw [if_pos ⟨hns, .inr (isText_false h2)⟩, hu h1]

theorem leaves_total (last : SectionType) (n : Node) (ns : List Node) : ∃ place, Leaves last n ns place := by
  by_cases h : ActionPart n
  · obtain ⟨t, h⟩ := h
    exact ⟨_, .part h⟩
  · cases ns with
    | nil => exact ⟨_, .other h (by simp)⟩
    | cons m ns =>
      by_cases ht : TextBlock m
      · exact ⟨_, .text h rfl ht⟩
      · refine ⟨_, .other h ?_⟩
        rintro m' ⟨⟩
        exact ht

theorem sections_iff {ns : List Node} : ∀ {last place : SectionType} {a : Action} {vs : List Warning} {d : Data},
    (∀ n ∈ ns, go n = true) → (ns ≠ [] → place = last) →
    (loop (sectionData w parent outer) recognise.actionNested ns last ⟨a, vs⟩ = .ok d ↔
      ∃ a' ws, Sections w parent place a ns a' ws ∧ d = ⟨a', vs ++ ws⟩) := by
  induction ns with
  | nil =>
    intro last place a vs d _ _
    rw [loop]
    constructor
    · intro h; cases h; exact ⟨_, _, .done, by simp⟩
    · rintro ⟨q, ws, h, rfl⟩; cases h; simp
  | cons n ns ih =>
    intro last place a vs d hg hp
    have hp := hp (by simp)
    subst hp
    have hgn := hg n (by simp)
    have hgs : ∀ m ∈ ns, go m = true := fun m hm => hg m (by simp [hm])
    obtain ⟨b', hl⟩ := leaves_total place n ns
    constructor
    · intro h
      obtain ⟨d₁, h1, h2⟩ := loop_cons h
      obtain ⟨p₁, c, hp, rfl⟩ := part_eq.mp h1
      obtain ⟨q, e, hs, rfl⟩ := (ih hgs (leaves_iff hgn hl)).mp h2
      exact ⟨q, c ++ e, .next hp hl hs, by simp [List.append_assoc]⟩
    · rintro ⟨q, ws, h, rfl⟩
      cases h with
      | next hp hl hs =>
        rw [loop, part_eq.mpr ⟨_, _, hp, rfl⟩]
        simp only
        rw [(ih hgs (leaves_iff hgn hl)).mpr ⟨_, _, hs, rfl⟩]
        simp [List.append_assoc]

/-! ## The action -/

theorem headerResult_iff {σ : Type} {sg : Node → σ → Except Stop σ} {isD : Node → Bool} {ds : Node → σ → Except Stop σ}
    {f : Node → SectionType → σ → Except Stop σ} {ty : Node → SectionType} {fin : σ → σ} {sig : Node} {blocks : List Node} {d e : σ} :
    headerResult sg isD ds f ty fin sig blocks d = .ok e ↔ ∃ d₁ d₂ d₃, sg sig d = .ok d₁ ∧ steps ds (blocks.takeWhile isD) d₁ = .ok d₂ ∧
      loop f ty (blocks.dropWhile isD) .undefined d₂ = .ok d₃ ∧ fin d₃ = e := by
  unfold headerResult
  cases sg sig d with
  | error => simp
  | ok d₁ =>
    simp only [Except.ok.injEq, exists_and_left, exists_eq_left']
    cases steps ds (blocks.takeWhile isD) d₁ with
    | error => simp
    | ok d₂ =>
      simp only [Except.ok.injEq, exists_eq_left']
      cases loop f ty (blocks.dropWhile isD) .undefined d₂ <;> simp

/-- The block belongs to the description, if it comes before all sections. -/
def described (n : Node) : Bool := recognise.isDescription recognise.actionNested actionUpper n

theorem described_go {n : Node} (h : described n = true) : go n = true := by
  unfold described Recognise.isDescription at h
  unfold go
  by_cases hu : recognise.actionNested n = .undefined
  · rw [if_neg (by simpa using hu)] at h ⊢
    split
    · rfl
    · unfold Recognise.isUnexpected
      by_cases hc : actionUpper.contains (recognise.keyword n) = true
      · rw [hc] at h ⊢; simpa using h
      · simp only [Bool.not_eq_true] at hc; rw [hc]; rfl
  · rw [if_pos hu] at h; cases h

theorem described_iff {n : Node} (hg : go n = true) : described n = true ↔ ¬ ActionPart n := by
  unfold described Recognise.isDescription
  rw [part_iff, Decidable.not_not]
  by_cases hu : recognise.actionNested n = .undefined
  · rw [if_neg (by simpa using hu), hu]
    simp only [List.mem_cons, true_or, iff_true]
    have hb : ¬ Begins n := fun h => (go_iff n).mp hg (.inl h)
    rw [← begins_iff, Bool.not_eq_true] at hb
    rw [hb]; simp
  · rw [if_pos hu]
    have : ¬ (recognise.actionNested n = .model ∨ recognise.actionNested n = .modelBody) := by
      rintro (h | h) <;> simp [go, h] at hg
    simp [hu, not_or.mp this]

theorem until_on {P : Node → Prop} {p : Node → Bool} {l pre post : List Node} (h : ∀ n ∈ l, p n = true ↔ ¬ P n) :
    Until P l pre post ↔ pre = l.takeWhile p ∧ post = l.dropWhile p := by
  classical
  have e := until_iff (P := P) (p := fun n => !decide (P n)) (l := l) (pre := pre) (post := post) (fun n => by simp)
  rw [e]
  have h1 : ∀ l : List Node, (∀ n ∈ l, p n = true ↔ ¬ P n) → l.takeWhile p = l.takeWhile (fun n => !decide (P n)) ∧
      l.dropWhile p = l.dropWhile (fun n => !decide (P n)) := by
    intro l
    induction l with
    | nil => intro _; exact ⟨rfl, rfl⟩
    | cons a l ih =>
      intro h
      have ha : p a = !decide (P a) := by
        have := h a (by simp)
        by_cases hp : P a
        · simp [hp] at this ⊢; exact this
        · simp [hp] at this ⊢; exact this
      have := ih (fun n hn => h n (by simp [hn]))
      simp only [List.takeWhile_cons, List.dropWhile_cons, ha, this.1, this.2, and_self]
  rw [(h1 l h).1, (h1 l h).2]

/-- The action that a header and its blocks give. -/
def actionResult (w : World) (parent : SectionType) (outer : List SectionType) (sig : Node) (blocks : List Node) : Except Stop Data :=
  headerResult (fun n d => actionSignatureNode n ⟨parent :: outer, d⟩) described (fun n d => actionDescription w n ⟨parent :: outer, d⟩)
    (sectionData w parent outer) recognise.actionNested actionFinalize sig blocks {}

theorem action_parse (w : World) {siblings : List Node} {i : Nat} {sig : Node} (parent : SectionType) (outer : List SectionType)
    (hi : siblings[i]? = some sig) (hk : sig.kind = .header) :
    parseAction w (parent :: outer) siblings i =
      match actionResult w parent outer sig ((siblings.drop (i + 1)).takeWhile go) with
      | .error e => .error e
      | .ok d' => .ok (i + 1 + ((siblings.drop (i + 1)).takeWhile go).length, ⟨parent :: outer, d'⟩) := by
  unfold parseAction actionGrammar Grammar.parse
  rw [parse_header (o := actionOwn w) (top := parent) (go := go) (sg := fun n d => actionSignatureNode n ⟨parent :: outer, d⟩)
    (ds := fun n d => actionDescription w n ⟨parent :: outer, d⟩) (f := sectionData w parent outer) (fin := actionFinalize) {} hi hk (fun _ => rfl)
    (fun d => oneSignature_eq hi)
    (fun j m d h _ => one_eq (f := actionDescription w) (pd := ⟨parent :: outer, d⟩) h)
    (fun m h => described_go h) (fun _ => rfl) (fun _ _ => rfl)
    (fun j m last d h hg => action_step w parent outer siblings j m last d h hg)
    (fun j m last d h hg => action_stop w parent outer siblings j m last d h hg) (fun _ _ _ => rfl)]
  rw [show headerResult _ (fun x => (actionOwn w).isDescription x parent) _ _ (actionOwn w).nestedType _ _ _ _ = actionResult w parent outer sig _ from rfl]
  cases actionResult w parent outer sig ((siblings.drop (i + 1)).takeWhile go) <;> rfl

/-- What the header says. -/
def headed (text : Bytes) : Action where
  method := (actionSignature text).1.method
  name := (actionSignature text).1.name
  uri := (actionSignature text).1.uri

theorem read_iff {sig : Node} {blocks : List Node} {d : Data} (hg : ∀ n ∈ blocks, go n = true) :
    actionResult w parent outer sig blocks = .ok d ↔ ∃ a ws, ActionRead w parent sig blocks a ws ∧ d = ⟨a, ws⟩ := by
  have hd : ∀ {pre post}, Until ActionPart blocks pre post ↔ pre = blocks.takeWhile described ∧ post = blocks.dropWhile described :=
    until_on fun n hn => described_iff (hg n hn)
  have hgd : ∀ n ∈ blocks.dropWhile described, go n = true := fun n hn => hg n ((List.dropWhile_sublist _).subset hn)
  unfold actionResult
  rw [headerResult_iff]
  have es : actionSignatureNode sig ⟨parent :: outer, {}⟩ = .ok ⟨{ headed sig.text with description := (getFirstLine sig.text).2 }, []⟩ := rfl
  have hl : ∀ {a}, HeadLine sig.text a ↔ a = headed sig.text := headLine_iff
  constructor
  · rintro ⟨d₁, d₂, d₃, h1, h2, h3, h4⟩
    rw [es] at h1
    cases h1
    obtain ⟨e, g2, rfl⟩ := describes_iff.mp h2
    obtain ⟨a₁, b, g3, rfl⟩ := (sections_iff (place := .undefined) hgd (fun _ => rfl)).mp h3
    obtain ⟨a₂, c, g4, rfl⟩ := finished_iff.mp h4
    exact ⟨_, _, .mk (hl.mpr rfl) (remainder_iff.mpr rfl) (hd.mpr ⟨rfl, rfl⟩) g2 g3 g4, by simp⟩
  · rintro ⟨a, ws, h, rfl⟩
    cases h with
    | mk h1 h2 h3 h4 h5 h6 =>
      rw [hl] at h1
      rw [remainder_iff] at h2
      obtain ⟨rfl, rfl⟩ := hd.mp h3
      subst h1 h2
      exact ⟨_, _, _, es, describes_iff.mpr ⟨_, h4, rfl⟩, (sections_iff (place := .undefined) hgd (fun _ => rfl)).mpr ⟨_, _, h5, rfl⟩,
        finished_iff.mpr ⟨_, _, h6, by simp⟩⟩

end Verif.Action
