import Verif.Proof.ResourceParts
import Verif.Proof.RunLoop

/-! # What the parser of resources gives -/

namespace Verif.Resource
open Verif Verif.Text Verif.Regex Verif.Section Verif.Recognition Verif.Spec Verif.Spec.Recognition Verif.Spec.Payload Verif.Spec.Resource Verif.Props
open Verif.Action (Action actionResult)
open Verif.Spec.Action (RequestItem ResponseItem HasParts NotFound Ends ActionRead Injected)
open Verif.Payload (steps run landing runResult closing_run body_run lastOf outcome sourceOf ignored headersResult payloadResult parts_iff parts_uniq
  one_eq strays_iff maybe_iff level_iff headers_parse payload_parse headersRead_of headersRead_total until_iff textBlock_iff isText_false)
open Verif.References (Table)

/-! ## One section -/

/-- The headers of a resource. -/
def headersData (s : Surroundings) (parent : SectionType) (sig : Node) (blocks : List Node) (d : Data) : Data :=
  let r := headersResult (s.world d.table) parent sig blocks ⟨{ headers := d.resource.headers }, []⟩
  { d with
    resource := { d.resource with headers := r.payload.headers }
    warnings := d.warnings ++ r.warnings.map (.action ∘ .payload) ++ [.action .deprecatedHeaders] }

/-- A model. -/
def modelData (s : Surroundings) (parent : SectionType) (outer : List SectionType) (t : SectionType) (sig : Node) (blocks : List Node) (d : Data) :
    Except Stop Data :=
  match payloadResult (s.world d.table) t (parent :: outer) sig blocks with
  | .error e => .error e
  | .ok r => .ok (addModel r.payload r.warnings d)

/-- What a block that is not the header of an action gives. -/
def partData (s : Surroundings) (parent : SectionType) (outer : List SectionType) (n : Node) (last : SectionType) (d : Data) : Except Stop Data :=
  match recognise.resourceNested n, Payload.read n with
  | .parameters, _ => .ok (processParameters s n d)
  | .headers, sig :: blocks => .ok (headersData s parent sig blocks d)
  | .model, sig :: blocks => modelData s parent outer .model sig blocks d
  | .modelBody, sig :: blocks => modelData s parent outer .modelBody sig blocks d
  | .attributes, _ => .ok (processAttributes s n d)
  | _, _ => unexpected s last n ⟨.undefined :: parent :: outer, d⟩

/-- An action. -/
def actionData (s : Surroundings) (parent : SectionType) (outer : List SectionType) (n : Node) (blocks : List Node) (d : Data) : Except Stop Data :=
  match actionResult (s.world d.table) .action (parent :: outer) n blocks with
  | .error e => .error e
  | .ok r => .ok ((addAction r.action r.warnings d).warn (checkAction d.resource r.action))

/-- What a section gives and the blocks that are left. -/
def sectionData (s : Surroundings) (parent : SectionType) (outer : List SectionType) (n : Node) (ns : List Node) (last : SectionType) (d : Data) :
    Except Stop (List Node × Data) :=
  if recognise.resourceNested n = .action then (actionData s parent outer n (ns.takeWhile Action.go) d).map (ns.dropWhile Action.go, ·)
  else (partData s parent outer n last d).map (ns, ·)

theorem map_ok {α β : Type} {f : α → β} {x : Except Stop α} {y : β} (h : x.map f = .ok y) : ∃ a, x = .ok a ∧ f a = y := by
  cases x with
  | error e => cases h
  | ok a => cases h; exact ⟨a, rfl, rfl⟩

theorem section_suffix {s : Surroundings} {parent : SectionType} {outer : List SectionType} (n : Node) (ns : List Node) (last : SectionType)
    (d : Data) (rest : List Node) (d' : Data) (h : sectionData s parent outer n ns last d = .ok (rest, d')) : rest <:+ ns := by
  unfold sectionData at h
  split at h
  · obtain ⟨_, _, h⟩ := map_ok h
    cases h
    exact List.dropWhile_suffix _
  · obtain ⟨_, _, h⟩ := map_ok h
    cases h
    exact List.suffix_rfl

theorem landing_one {σ : Type} {ns : List Node} {j : Nat} {n : Node} {ctx : List SectionType} {x : Except Stop σ} (h : ns[j]? = some n) :
    outcome j ctx x = landing ns ctx (x.map (ns.drop (j + 1), ·)) := by
  have hl : j < ns.length := (List.getElem?_eq_some_iff.mp h).1
  cases x with
  | error e => rfl
  | ok d =>
    simp only [outcome, Except.map, landing, List.length_drop]
    congr 2
    omega

theorem landing_many {σ : Type} {ns : List Node} {j : Nat} {n : Node} {ctx : List SectionType} {p : Node → Bool} {x : Except Stop σ}
    (h : ns[j]? = some n) :
    (match x with
    | .error e => .error e
    | .ok d => .ok (j + 1 + ((ns.drop (j + 1)).takeWhile p).length, ⟨ctx, d⟩)) = landing ns ctx (x.map ((ns.drop (j + 1)).dropWhile p, ·)) := by
  have hl : j < ns.length := (List.getElem?_eq_some_iff.mp h).1
  cases x with
  | error e => rfl
  | ok d =>
    simp only [Except.map, landing]
    have := congrArg List.length (List.takeWhile_append_dropWhile (p := p) (l := ns.drop (j + 1)))
    rw [List.length_append, List.length_drop] at this
    congr 2
    omega

theorem item_parts {n : Node} (h : ∃ s, ItemLine n s ∧ True) : ∃ sig blocks, Parts n sig blocks := by
  rw [itemLine_iff] at h
  obtain ⟨sig, blocks, hr⟩ := Payload.read_ne h.1.2
  exact ⟨sig, blocks, parts_iff.mpr ⟨h.1.1, hr⟩⟩

theorem section_parts {n : Node} {t : SectionType} (h : SectionOf n t) (hn : t ≠ .action) : ∃ sig blocks, Parts n sig blocks := by
  cases h with
  | parameters h => obtain ⟨s, h, _⟩ := h; exact item_parts ⟨s, h, trivial⟩
  | headers h => obtain ⟨s, h, _⟩ := h; exact item_parts ⟨s, h, trivial⟩
  | model h => obtain ⟨⟨s, h, _⟩, _⟩ := h; exact item_parts ⟨s, h, trivial⟩
  | shortModel h => obtain ⟨⟨s, h, _⟩, _⟩ := h; exact item_parts ⟨s, h, trivial⟩
  | attributes h => obtain ⟨s, h, _⟩ := h; exact item_parts ⟨s, h, trivial⟩
  | action h => exact absurd rfl hn

theorem resource_step (s : Surroundings) (parent : SectionType) (outer : List SectionType) (ns : List Node) (j : Nat) (m : Node)
    (last : SectionType) (d : Data) (h : ns[j]? = some m) (hg : go m = true) :
    nestedStep (own s) false (fun _ => Grammar.absent.parse) ns m j last ⟨(own s).nestedType m :: parent :: outer, d⟩ =
      landing ns ((own s).nestedType m :: parent :: outer) (sectionData s parent outer m (ns.drop (j + 1)) last d) := by
  have hu : ∀ t, SectionOf m t → t ≠ .action → ∃ sig blocks, m.kind = .listItem ∧ Payload.read m = sig :: blocks := by
    intro t hn ht
    obtain ⟨sig, blocks, hp⟩ := section_parts hn ht
    exact ⟨sig, blocks, parts_iff.mp hp⟩
  unfold nestedStep sectionData
  simp only [own, Bool.false_or]
  rcases nested_cases m with ⟨h1, hm⟩ | ⟨h1, hm⟩ | ⟨h1, h2, hm⟩ | ⟨h1, h2, hm⟩ | ⟨h1, h2, hm⟩ | ⟨h1, hm⟩ | ⟨_, _, _, _, _, hm⟩
  · rw [hm, if_pos (by decide : SectionType.parameters ≠ .undefined), if_neg (by decide : ¬ SectionType.parameters = .action), ← landing_one h]
    simp only [hm, partData, nestedSection, h, PD.top, PD.set, ne_eq, reduceCtorEq, not_false_eq_true, if_true]
    rfl
  · obtain ⟨sig, blocks, hk, hr⟩ := hu _ (.headers h1) (by decide)
    rw [hm, if_pos (by decide : SectionType.headers ≠ .undefined), if_neg (by decide : ¬ SectionType.headers = .action), ← landing_one h]
    simp only [hm, hr, partData, nestedSection, processHeaders, h, PD.top, PD.set, ne_eq, reduceCtorEq, not_false_eq_true, if_true]
    rw [show (Payload.payloadChild (s.world d.table) .headers).parse ns j ⟨.headers :: parent :: outer, ⟨{ headers := d.resource.headers }, []⟩⟩ = _
      from headers_parse (s.world d.table) _ parent outer _ h hk hr]
    rfl
  · obtain ⟨sig, blocks, hk, hr⟩ := hu _ (.model h1 h2) (by decide)
    rw [hm, if_pos (by decide : SectionType.model ≠ .undefined), if_neg (by decide : ¬ SectionType.model = .action), ← landing_one h]
    simp only [hm, hr, partData, nestedSection, processModel, h, PD.top, PD.set, ne_eq, reduceCtorEq, not_false_eq_true, if_true, List.tail_cons]
    rw [payload_parse (s.world d.table) .model (parent :: outer) h hk hr]
    unfold modelData
    cases payloadResult (s.world d.table) .model (parent :: outer) sig blocks <;> rfl
  · obtain ⟨sig, blocks, hk, hr⟩ := hu _ (.shortModel h1 h2) (by decide)
    rw [hm, if_pos (by decide : SectionType.modelBody ≠ .undefined), if_neg (by decide : ¬ SectionType.modelBody = .action), ← landing_one h]
    simp only [hm, hr, partData, nestedSection, processModel, h, PD.top, PD.set, ne_eq, reduceCtorEq, not_false_eq_true, if_true, List.tail_cons]
    rw [payload_parse (s.world d.table) .modelBody (parent :: outer) h hk hr]
    unfold modelData
    cases payloadResult (s.world d.table) .modelBody (parent :: outer) sig blocks <;> rfl
  · rw [hm, if_pos (by decide : SectionType.attributes ≠ .undefined), if_neg (by decide : ¬ SectionType.attributes = .action), ← landing_one h]
    simp only [hm, partData, nestedSection, h, PD.top, PD.set, ne_eq, reduceCtorEq, not_false_eq_true, if_true]
    rfl
  · rw [hm, if_pos (by decide : SectionType.action ≠ .undefined), if_pos rfl, ← landing_many h]
    simp only [nestedSection, processAction, h, PD.top, PD.set, ne_eq, reduceCtorEq, not_false_eq_true, if_true]
    rw [Action.action_parse (s.world d.table) .action (parent :: outer) h h1.1]
    unfold actionData
    cases actionResult (s.world d.table) .action (parent :: outer) m ((ns.drop (j + 1)).takeWhile Action.go) <;> rfl
  · have hx : recognise.isUnexpected upper m = true := by
      unfold go at hg
      rw [hm] at hg
      exact hg
    rw [hm, if_neg (by decide), if_pos hx, if_neg (by decide), ← landing_one h]
    simp only [partData, hm]
    exact one_eq (f := unexpected s last) h

theorem resource_stop (s : Surroundings) (parent : SectionType) (outer : List SectionType) (ns : List Node) (j : Nat) (m : Node)
    (last : SectionType) (d : Data) (hg : go m = false) :
    nestedStep (own s) false (fun _ => Grammar.absent.parse) ns m j last ⟨(own s).nestedType m :: parent :: outer, d⟩ =
      .ok (j, ⟨(own s).nestedType m :: parent :: outer, d⟩) := by
  unfold nestedStep
  unfold go at hg
  simp only [own, Bool.false_or]
  by_cases hu : recognise.resourceNested m = .undefined
  · rw [hu] at hg
    have hg : recognise.isUnexpected upper m = false := hg
    simp only [hu, ne_eq, not_true_eq_false, if_false, hg, Bool.false_eq_true]
  · rw [if_pos hu] at hg; cases hg

/-! ## One block -/

variable {s : Surroundings} {parent : SectionType} {outer : List SectionType}

theorem partData_other {n : Node} (last : SectionType) (d : Data) (hn : ¬ ResourcePart n) :
    partData s parent outer n last d = unexpected s last n ⟨.undefined :: parent :: outer, d⟩ := by
  rw [part_iff, Decidable.not_not] at hn
  unfold partData
  rw [hn]

theorem payload_types {t : SectionType} (h : t = .model ∨ t = .modelBody) : ∃ k b, (k, b, t) ∈ payloadTypes := by
  rcases h with rfl | rfl <;> simp [payloadTypes]

theorem model_type {n : Node} {t : SectionType} (h : SectionOf n t) (hm : ModelItem n) : t = .model ∨ t = .modelBody := by
  have e : SectionOf n .model ∨ SectionOf n .modelBody := by
    by_cases hp : HasParts n
    · exact .inl (.model hm hp)
    · exact .inr (.shortModel hm hp)
  have := (section_iff (section_type h)).mpr h
  rcases e with e | e
  · left; rw [← this]; exact (section_iff (section_type e)).mpr e
  · right; rw [← this]; exact (section_iff (section_type e)).mpr e

theorem partData_model {n sig : Node} {blocks : List Node} {t : SectionType} (last : SectionType) (d : Data) (hs : SectionOf n t)
    (ht : t = .model ∨ t = .modelBody) (hp : Parts n sig blocks) :
    partData s parent outer n last d = modelData s parent outer t sig blocks d := by
  unfold partData
  rw [(section_iff (section_type hs)).mpr hs, (parts_iff.mp hp).2]
  rcases ht with rfl | rfl <;> rfl

theorem addModel_eq {x : State} {vs : List Warning} {p q : References.Payload} {ws : List Payload.Warning} {b : List Warning} {table : Table}
    {error : Option Problem} (h1 : Named x.resource.name p q) (h2 : Shadows x.resource b)
    (h3 : Defines x.resource.uri x.table x.error q table error) :
    addModel p ws (data x vs) = data ⟨{ x.resource with model := q }, table, error⟩ (vs ++ (of ws ++ b)) := by
  rw [named_iff] at h1
  rw [shadows_iff] at h2
  obtain ⟨h3, h4⟩ := defines_iff.mp h3
  subst h1 h2 h3 h4
  unfold addModel data
  simp only [of_eq, List.append_assoc]
  cases x.table.find (named x.resource.name p).name <;> rfl

theorem level_two {t : SectionType} (h : t = .model ∨ t = .modelBody) : 2 ≤ Payload.codeBlockLevel t := by
  rcases h with rfl | rfl <;> decide

theorem unexpected_text {n : Node} {last : SectionType} {ctx : List SectionType} {x y : State} {vs : List Warning} {c : Bytes}
    {ws : List Payload.Warning} (ht : TextBlock n) (hc : Continued last c x y)
    (hd : Action.dangling (s.world x.table) last .undefined n = .ok (c, ws)) :
    unexpected s last n ⟨.undefined :: ctx, data x vs⟩ = .ok (data y (vs ++ of ws)) := by
  cases hc with
  | mk h1 h2 h3 =>
    rw [rebodied_iff] at h3
    subst h2 h3
    unfold unexpected
    rw [if_pos ⟨ht, Or.symm h1⟩]
    simp only [PD.top, data, hd]
    rfl

theorem unexpected_other {n : Node} {last : SectionType} {ctx : List SectionType} {x : State} {vs : List Warning}
    (ht : ¬ (TextBlock n ∧ (last = .model ∨ last = .modelBody))) :
    unexpected s last n ⟨ctx, data x vs⟩ = .ok (data x (vs ++ of [ignored n])) := by
  unfold unexpected
  rw [if_neg (fun h => ht ⟨h.1, Or.symm h.2⟩)]
  rfl

theorem processAttributes_eq (n : Node) (x : State) (vs : List Warning) : processAttributes s n (data x vs) =
    if x.resource.name = [] then data { x with resource := { x.resource with attributes :=
        ⟨x.resource.attributes.name, (s.attributes [] n x.resource.attributes.content).1⟩ } }
        (vs ++ of (s.attributes [] n x.resource.attributes.content).2)
    else if s.named x.resource.name = true then data { x with resource := { x.resource with attributes := {} } }
        (vs ++ (of (s.attributes x.resource.name n x.resource.attributes.content).2 ++ [.duplicateType x.resource.name]))
    else data { x with resource := { x.resource with attributes :=
        ⟨x.resource.name, (s.attributes x.resource.name n x.resource.attributes.content).1⟩ } }
        (vs ++ of (s.attributes x.resource.name n x.resource.attributes.content).2) := by
  unfold processAttributes data
  simp only [of_eq]
  by_cases h : x.resource.name = []
  · simp [h]
  · have h' : x.resource.name.isEmpty = false := by simpa using h
    simp only [h, h', if_false, Bool.false_eq_true]
    split <;> simp

theorem part_of {n : Node} {last : SectionType} {x y : State} {vs ws : List Warning}
    (h : Part s parent last n x y ws) : partData s parent outer n last (data x vs) = .ok (data y (vs ++ ws)) := by
  cases h with
  | parameters h1 h2 h3 =>
    rw [Action.notFound_iff] at h3
    subst h3
    unfold partData
    rw [(section_iff (t := .parameters) (by decide)).mpr (.parameters h1)]
    unfold processParameters data
    simp only [h2, of_eq, List.append_assoc]
  | headers h1 h2 =>
    obtain ⟨sig, blocks, hp⟩ := section_parts (.headers h1) (by decide)
    unfold partData
    rw [(section_iff (t := .headers) (by decide)).mpr (.headers h1), (parts_iff.mp hp).2]
    simp only [headersData]
    have := headersRead_of hp (p := { headers := x.resource.headers }) (vs := []) h2
    rw [show (data x vs).resource = x.resource from rfl, show (data x vs).table = x.table from rfl, this]
    simp [data, of_eq]
  | attributes h1 h2 h3 =>
    unfold partData
    rw [(section_iff (t := .attributes) (by decide)).mpr h1]
    simp only
    rw [processAttributes_eq, if_pos h2, h3]
  | type h1 h2 h3 h4 =>
    unfold partData
    rw [(section_iff (t := .attributes) (by decide)).mpr h1]
    simp only
    rw [processAttributes_eq, if_neg h2, if_neg (by rw [h4]; decide), h3]
  | duplicate h1 h2 h3 h4 =>
    unfold partData
    rw [(section_iff (t := .attributes) (by decide)).mpr h1]
    simp only
    rw [processAttributes_eq, if_neg h2, if_pos h4, h3]
  | model h1 h2 h3 h4 h5 h6 h7 =>
    have ht := model_type h2 h1
    rw [partData_model _ _ h2 ht h3]
    unfold modelData
    have := (Payload.read_iff (outer := parent :: outer) (payload_types ht)).mpr ⟨_, _, h4, rfl⟩
    rw [show (data x vs).table = x.table from rfl, this]
    simp only
    rw [addModel_eq h5 h6 h7]
  | code h1 h2 h3 h4 h5 h6 h7 =>
    rw [maybe_iff] at h6
    rw [level_iff] at h7
    subst h6
    rw [partData_other _ _ h1, unexpected_text (.inr h2) h5]
    unfold Action.dangling
    rw [if_pos h2, if_pos h2]
    cases ht : twoNewLines n.text with
    | none => rcases Payload.twoNewLines_none.mp ht with h | h <;> contradiction
    | some r =>
      have hl : last = .model ∨ last = .modelBody := by cases h5; assumption
      have := level_two hl
      simp only [Payload.twoNewLines_closed ht, ← h7]
      rw [if_neg (by omega)]
      simp
  | paragraph h1 h2 h3 h4 h4' h5 h6 h7 =>
    rename_i v r k
    rw [maybe_iff] at h6
    rw [level_iff] at h7
    subst h6
    rw [partData_other _ _ h1, unexpected_text (.inl h2) h5]
    unfold Action.dangling
    rw [if_neg (by rw [h2]; decide), if_neg (by rw [h2]; decide), sourceOf, show (s.world x.table).source = s.source from rfl, h3]
    cases ht : twoNewLines v with
    | none => rcases Payload.twoNewLines_none.mp ht with h | h <;> contradiction
    | some r =>
      have := Action.level_pos last
      simp only [Payload.twoNewLines_closed ht, ← h7]
      rw [if_neg (by omega)]
  | ignored h1 h2 h3 =>
    rw [strays_iff] at h3
    subst h3
    rw [partData_other _ _ h1, unexpected_other h2]
    rfl

theorem part_exists {n : Node} {last : SectionType} {x : State} {vs : List Warning} {d : Data} (hna : ¬ ActionHeader n)
    (h : partData s parent outer n last (data x vs) = .ok d) : ∃ y ws, Part s parent last n x y ws := by
  have mod : ∀ {t}, SectionOf n t → ModelItem n → ∃ y ws, Part s parent last n x y ws := by
    intro t hs hm
    have ht := model_type hs hm
    obtain ⟨sig, blocks, hp⟩ := section_parts hs (by rcases ht with rfl | rfl <;> decide)
    rw [partData_model _ _ hs ht hp] at h
    unfold modelData at h
    rw [show (data x vs).table = x.table from rfl] at h
    cases hc : payloadResult (s.world x.table) t (parent :: outer) sig blocks with
    | error e => rw [hc] at h; cases h
    | ok r =>
      obtain ⟨p, ws, hr', -⟩ := (Payload.read_iff (payload_types ht)).mp hc
      exact ⟨_, _, .model hm hs hp hr' (named_iff.mpr rfl) (shadows_iff.mpr rfl) (defines_iff.mpr ⟨rfl, rfl⟩)⟩
  by_cases hn : ResourcePart n
  · obtain ⟨t, hs⟩ := hn
    cases hs with
    | parameters h1 => exact ⟨_, _, .parameters h1 rfl (Action.notFound_iff.mpr rfl)⟩
    | headers h1 =>
      obtain ⟨sig, blocks, hp⟩ := section_parts (.headers h1) (by decide)
      obtain ⟨hs', ws, h⟩ := headersRead_total (s.world x.table) parent hp x.resource.headers
      exact ⟨_, _, .headers h1 h⟩
    | model h1 h2 => exact mod (.model h1 h2) h1
    | shortModel h1 h2 => exact mod (.shortModel h1 h2) h1
    | attributes h1 h2 =>
      by_cases hx : x.resource.name = []
      · exact ⟨_, _, .attributes (.attributes h1 h2) hx rfl⟩
      · cases hd : s.named x.resource.name with
        | false => exact ⟨_, _, .type (.attributes h1 h2) hx rfl hd⟩
        | true => exact ⟨_, _, .duplicate (.attributes h1 h2) hx rfl hd⟩
    | action h => exact absurd h hna
  · by_cases hc : TextBlock n ∧ (last = .model ∨ last = .modelBody)
    · obtain ⟨ht, hl⟩ := hc
      rw [partData_other _ _ hn] at h
      have hd : ∃ r, Action.dangling (s.world x.table) last .undefined n = .ok r := by
        unfold unexpected at h
        rw [if_pos ⟨ht, Or.symm hl⟩] at h
        simp only [PD.top, show (data x vs).table = x.table from rfl] at h
        cases hd : Action.dangling (s.world x.table) last .undefined n with
        | error e => rw [hd] at h; cases h
        | ok r => exact ⟨r, rfl⟩
      obtain ⟨r, hd⟩ := hd
      have hv := level_two hl
      have hc : ∀ c, ∃ y, Continued last c x y := fun c => ⟨_, .mk hl rfl (rebodied_iff.mpr rfl)⟩
      unfold Action.dangling at hd
      by_cases hk : n.kind = .code
      · rw [if_pos hk] at hd
        cases h2 : twoNewLines n.text with
        | none => rw [h2] at hd; cases hd
        | some r =>
          have hne : ¬ (n.text = [] ∨ n.text = [asc '\n']) := by rw [← Payload.twoNewLines_none, h2]; simp
          rw [not_or] at hne
          obtain ⟨y, hc⟩ := hc (closed n.text)
          exact ⟨_, _, .code (k := Payload.codeBlockLevel last - 1) hn hk hne.1 hne.2 hc (maybe_iff.mpr rfl) (level_iff.mpr (by omega))⟩
      · have hp : n.kind = .paragraph := ht.resolve_right hk
        rw [if_neg hk, sourceOf, show (s.world x.table).source = s.source from rfl] at hd
        generalize hv : ByteBuffer.mapBytesRangeSet n.sourceMap s.source = v at hd
        cases h2 : twoNewLines v with
        | none => rw [h2] at hd; cases hd
        | some r =>
          have hne : ¬ (v = [] ∨ v = [asc '\n']) := by rw [← Payload.twoNewLines_none, h2]; simp
          rw [not_or] at hne
          obtain ⟨y, hc⟩ := hc (closed v)
          exact ⟨_, _, .paragraph hn hp hv hne.1 hne.2 hc (maybe_iff.mpr rfl) (level_iff.mpr rfl)⟩
    · exact ⟨_, _, .ignored hn hc (strays_iff.mpr rfl)⟩

theorem part_eq {n : Node} {last : SectionType} {x : State} {vs : List Warning} {d : Data} (hna : ¬ ActionHeader n) :
    partData s parent outer n last (data x vs) = .ok d ↔ ∃ y ws, Part s parent last n x y ws ∧ d = data y (vs ++ ws) := by
  constructor
  · intro h
    obtain ⟨q, ws, hp⟩ := part_exists hna h
    refine ⟨q, ws, hp, ?_⟩
    rw [part_of hp] at h
    cases h; rfl
  · rintro ⟨q, ws, hp, rfl⟩
    exact part_of hp

theorem action_eq {n : Node} {blocks : List Node} {x : State} {vs : List Warning} {d : Data} (hg : ∀ m ∈ blocks, Action.go m = true) :
    actionData s parent outer n blocks (data x vs) = .ok d ↔ ∃ a v b c e, ActionRead (s.world x.table) .action n blocks a v ∧
      SameMethod x.resource a b ∧ SameRelation x.resource a c ∧ Misfits x.resource a e ∧
      d = data (x.withAction a) (vs ++ (v.map .action ++ b ++ c ++ e.map .action)) := by
  have key : ∀ a (v : List Action.Warning), (addAction a v (data x vs)).warn (checkAction x.resource a) =
      data (x.withAction a) (vs ++ (v.map .action ++ (if x.resource.actions.any (matchAction · a) then [.duplicateMethod a.method x.resource.uri] else []) ++
        (if x.resource.actions.any (matchRelation · a.relation) then [.duplicateRelation a.relation x.resource.uri] else []) ++
        (if !a.parameters.isEmpty && a.uri.isEmpty then Action.eligibility x.resource.uri a.parameters else []).map .action)) := by
    intro a v
    rw [check_iff]
    simp [addAction, Data.warn, data, State.withAction]
  unfold actionData
  rw [show (data x vs).table = x.table from rfl, show (data x vs).resource = x.resource from rfl]
  constructor
  · intro h
    cases hr : actionResult (s.world x.table) .action (parent :: outer) n blocks with
    | error e => rw [hr] at h; cases h
    | ok r =>
      obtain ⟨a, v, h1, rfl⟩ := (Action.read_iff hg).mp hr
      rw [hr] at h
      cases h
      exact ⟨a, v, _, _, _, h1, sameMethod_iff.mpr rfl, sameRelation_iff.mpr rfl, misfits_iff.mpr rfl, key _ _⟩
  · rintro ⟨a, v, b, c, e, h1, h2, h3, h4, rfl⟩
    rw [sameMethod_iff] at h2
    rw [sameRelation_iff] at h3
    rw [misfits_iff] at h4
    subst h2 h3 h4
    rw [(Action.read_iff hg).mpr ⟨_, _, h1, rfl⟩]
    simp only
    rw [key]

/-! ## All blocks -/

theorem leaves_iff {n : Node} {ns : List Node} {last place : SectionType} (h : Leaves last n ns place)
    (hns : ns ≠ []) : place = lastOf recognise.resourceNested n ns last := by
  have hu : ¬ ResourcePart n → recognise.resourceNested n = .undefined := by
    intro hn
    rw [part_iff, Decidable.not_not] at hn
    exact hn
  unfold lastOf
  cases h with
  | part h =>
    have ht := section_type h
    have e := (section_iff ht).mpr h
    rw [if_pos ⟨hns, .inl (by rw [e]; exact ht)⟩, e]
  | text h1 h2 h3 =>
    have h1 := hu h1
    rw [if_neg]
    rintro ⟨_, h | h⟩
    · exact h h1
    · rw [h2, (textBlock_iff _).mpr h3] at h; cases h
  | other h1 h2 =>
    rw [if_pos ⟨hns, .inr (isText_false h2)⟩, hu h1]

theorem leaves_total (last : SectionType) (n : Node) (ns : List Node) : ∃ place, Leaves last n ns place := by
  by_cases h : ResourcePart n
  · obtain ⟨t, h⟩ := h
    exact ⟨_, .part h⟩
  · cases ns with
    | nil => exact ⟨_, .other h (by simp)⟩
    | cons m ns =>
      by_cases ht : TextBlock m
      · exact ⟨_, .text h rfl ht⟩
      · refine ⟨_, .other h ?_⟩
        rintro m' ⟨⟩
        exact ht

theorem ends_until {l pre post : List Node} : Until Ends l pre post ↔ pre = l.takeWhile Action.go ∧ post = l.dropWhile Action.go :=
  until_iff fun n => Action.go_iff n

theorem take_go {l : List Node} : ∀ m ∈ l.takeWhile Action.go, Action.go m = true := by
  intro m h
  have := List.all_takeWhile (p := Action.go) (l := l)
  rw [List.all_eq_true] at this
  exact this m h

theorem action_type (n : Node) : recognise.resourceNested n = .action ↔ ActionHeader n := by
  rw [section_iff (by decide)]
  constructor
  · intro h; cases h; assumption
  · exact .action

theorem section_action {n : Node} (ns : List Node) (last : SectionType) (d : Data) (h : ActionHeader n) :
    sectionData s parent outer n ns last d = (actionData s parent outer n (ns.takeWhile Action.go) d).map (ns.dropWhile Action.go, ·) := by
  unfold sectionData
  rw [if_pos ((action_type n).mpr h)]

theorem section_other {n : Node} (ns : List Node) (last : SectionType) (d : Data) (h : ¬ ActionHeader n) :
    sectionData s parent outer n ns last d = (partData s parent outer n last d).map (ns, ·) := by
  unfold sectionData
  rw [if_neg (by rw [action_type]; exact h)]

theorem sections_iff : ∀ {fuel : Nat} {ns rest : List Node} {last place : SectionType} {x : State} {vs : List Warning} {d : Data},
    ns.length ≤ fuel → (ns ≠ [] → place = last) →
    (run (sectionData s parent outer) recognise.resourceNested go fuel ns last (data x vs) = .ok (rest, d) ↔
      ∃ y ws, Sections s parent place x ns rest y ws ∧ d = data y (vs ++ ws)) := by
  have nil : ∀ {fuel : Nat} {rest : List Node} {last place : SectionType} {x : State} {vs : List Warning} {d : Data},
      (run (sectionData s parent outer) recognise.resourceNested go fuel [] last (data x vs) = .ok (rest, d) ↔
      ∃ y ws, Sections s parent place x [] rest y ws ∧ d = data y (vs ++ ws)) := by
    intro fuel rest last place x vs d
    have : run (sectionData s parent outer) recognise.resourceNested go fuel [] last (data x vs) = .ok ([], data x vs) := by
      cases fuel <;> rfl
    rw [this]
    constructor
    · intro h; cases h; exact ⟨_, _, .done, by simp⟩
    · rintro ⟨q, ws, h, rfl⟩; cases h; simp
  intro fuel
  induction fuel with
  | zero =>
    intro ns rest last place x vs d hf _
    have : ns = [] := List.length_eq_zero_iff.mp (by omega)
    subst this
    exact nil
  | succ fuel ih =>
    intro ns rest last place x vs d hf hp
    cases ns with
    | nil => exact nil
    | cons n ns =>
      have hp := hp (by simp)
      subst hp
      rw [run]
      have hg := go_iff n
      have hlen : ns.length ≤ fuel := by simpa using hf
      by_cases hc : Closes n
      · rw [if_neg (by rw [hg]; simpa using hc)]
        constructor
        · intro h; cases h; exact ⟨_, _, .closed hc, by simp⟩
        · rintro ⟨y, ws, h, rfl⟩
          cases h with
          | closed => simp
          | action h => exact absurd h hc.2.1
          | next _ h => exact absurd hc h
      · rw [if_pos (hg.mpr hc)]
        by_cases ha : ActionHeader n
        · rw [section_action ns place _ ha]
          have hdl : (ns.dropWhile Action.go).length ≤ fuel := Nat.le_trans (List.dropWhile_suffix _).length_le hlen
          have hpl : ns.dropWhile Action.go ≠ [] → SectionType.action = lastOf recognise.resourceNested n (ns.dropWhile Action.go) place := by
            intro h
            unfold lastOf
            rw [(action_type n).mpr ha, if_pos ⟨h, .inl (by decide)⟩]
          constructor
          · intro h
            cases hr : actionData s parent outer n (ns.takeWhile Action.go) (data x vs) with
            | error e => rw [hr] at h; cases h
            | ok r =>
              rw [hr] at h
              simp only [Except.map] at h
              obtain ⟨a, v, b, c, e, h1, h2, h3, h4, rfl⟩ := (action_eq take_go).mp hr
              obtain ⟨y, ws, h5, rfl⟩ := (ih hdl hpl).mp h
              exact ⟨y, _, .action ha (ends_until.mpr ⟨rfl, rfl⟩) h1 h2 h3 h4 h5, by simp [List.append_assoc]⟩
          · rintro ⟨y, ws, h, rfl⟩
            cases h with
            | closed h => exact absurd h hc
            | next h => exact absurd ha h
            | action _ h0 h1 h2 h3 h4 h5 =>
              obtain ⟨rfl, rfl⟩ := ends_until.mp h0
              rw [(action_eq take_go).mpr ⟨_, _, _, _, _, h1, h2, h3, h4, rfl⟩]
              simp only [Except.map]
              rw [(ih hdl hpl).mpr ⟨_, _, h5, rfl⟩]
              simp [List.append_assoc]
        · rw [section_other ns place _ ha]
          constructor
          · intro h
            cases hr : partData s parent outer n place (data x vs) with
            | error e => rw [hr] at h; cases h
            | ok r =>
              rw [hr] at h
              simp only [Except.map] at h
              obtain ⟨y, v, h1, rfl⟩ := (part_eq ha).mp hr
              obtain ⟨place', hl⟩ := leaves_total place n ns
              obtain ⟨z, ws, h5, rfl⟩ := (ih hlen (leaves_iff hl)).mp h
              exact ⟨z, _, .next ha hc h1 hl h5, by simp [List.append_assoc]⟩
          · rintro ⟨y, ws, h, rfl⟩
            cases h with
            | closed h => exact absurd h hc
            | action h => exact absurd h ha
            | next _ _ h1 hl h5 =>
              rw [(part_eq ha).mpr ⟨_, _, h1, rfl⟩]
              simp only [Except.map]
              rw [(ih hlen (leaves_iff hl)).mpr ⟨_, _, h5, rfl⟩]
              simp [List.append_assoc]

/-! ## The resource -/

/-- What is read of a resource with one action. -/
def redirectResult (s : Surroundings) (parent : SectionType) (outer : List SectionType) (sig : Node) (blocks : List Node) (d : Data) :
    Except Stop (List Node × Data) :=
  match actionResult (s.world d.table) parent outer sig (blocks.takeWhile Action.go) with
  | .error e => .error e
  | .ok r => .ok (blocks.dropWhile Action.go, finalize (addAction r.action r.warnings d))

/-- What is read of a resource, and the blocks that are left. -/
def resourceResult (s : Surroundings) (parent : SectionType) (outer : List SectionType) (table : Table) (error : Option Problem) (sig : Node)
    (blocks : List Node) : Except Stop (List Node × Data) :=
  let p := resourceParts sig.text
  let d : Data := data ⟨{ name := p.name, uri := p.uri }, table, error⟩ []
  if p.action.isSome then redirectResult s parent outer sig blocks d
  else runResult isDescription (fun n d => description s n ⟨parent :: outer, d⟩) (sectionData s parent outer) recognise.resourceNested go finalize
    blocks d

theorem resource_parse (s : Surroundings) {siblings : List Node} {i : Nat} {sig : Node} (parent : SectionType) (outer : List SectionType)
    (table : Table) (error : Option Problem) (hi : siblings[i]? = some sig) (hk : sig.kind = .header) :
    parseResource s (parent :: outer) siblings i table error =
      landing siblings (parent :: outer) (resourceResult s parent outer table error sig (siblings.drop (i + 1))) := by
  have hlt : i < siblings.length := (List.getElem?_eq_some_iff.mp hi).1
  unfold parseResource grammar Grammar.parse parseSection Adapter.start
  simp only [hi, if_pos hk]
  rw [show (own s).signature = signature s from rfl]
  unfold signature resourceResult
  simp only [hi]
  by_cases hr : (resourceParts sig.text).action.isSome = true
  · simp only [hr, if_true]
    unfold redirectResult
    rw [show (data ⟨{ name := (resourceParts sig.text).name, uri := (resourceParts sig.text).uri }, table, error⟩ []).table = table from rfl,
      Action.action_parse (s.world table) parent outer hi hk]
    have := landing_many (ctx := parent :: outer) (p := Action.go)
      (x := (match actionResult (s.world table) parent outer sig ((siblings.drop (i + 1)).takeWhile Action.go) with
        | .error e => .error e
        | .ok r => .ok (finalize (addAction r.action r.warnings (data ⟨{ name := (resourceParts sig.text).name, uri := (resourceParts sig.text).uri }, table, error⟩ []))) :
        Except Stop Data)) hi
    cases hr : actionResult (s.world table) parent outer sig ((siblings.drop (i + 1)).takeWhile Action.go) with
    | error e => rfl
    | ok r =>
      rw [hr] at this
      exact this
  · simp only [hr, Bool.false_eq_true, if_false, PD.set]
    rw [body_run (o := own s) (a := .header) (i := i) (start := i) (cur := i + 1) (top := parent) (go := go) (ds := fun n d => description s n ⟨parent :: outer, d⟩)
      (F := sectionData s parent outer) (fin := finalize) _ rfl (fun _ _ _ => rfl) (by omega) (by omega) (fun _ => rfl)
      (fun j m d h _ => one_eq (f := description s) (pd := ⟨parent :: outer, d⟩) h)
      (fun _ => rfl) (fun _ _ => rfl)
      (fun j m last d h hg => resource_step s parent outer siblings j m last d h hg) section_suffix
      (fun j m last d h hg => resource_stop s parent outer siblings j m last d hg) (fun _ _ _ => rfl)]
    rfl

theorem after_until {l pre post : List Node} : Until AfterDescription l pre post ↔ pre = l.takeWhile isDescription ∧ post = l.dropWhile isDescription :=
  until_iff description_iff

theorem runResult_iff {σ : Type} {isD : Node → Bool} {ds : Node → σ → Except Stop σ}
    {F : Node → List Node → SectionType → σ → Except Stop (List Node × σ)} {ty : Node → SectionType} {go : Node → Bool} {fin : σ → σ}
    {blocks rest : List Node} {d e : σ} : runResult isD ds F ty go fin blocks d = .ok (rest, e) ↔
      ∃ d₁ d₂, steps ds (blocks.takeWhile isD) d = .ok d₁ ∧
        run F ty go (blocks.dropWhile isD).length (blocks.dropWhile isD) .undefined d₁ = .ok (rest, d₂) ∧ fin d₂ = e := by
  unfold runResult
  cases steps ds (blocks.takeWhile isD) d with
  | error => simp
  | ok d₁ =>
    simp only [Except.ok.injEq, exists_and_left, exists_eq_left']
    cases run F ty go (blocks.dropWhile isD).length (blocks.dropWhile isD) .undefined d₁ with
    | error => simp
    | ok x =>
      obtain ⟨r, d₂⟩ := x
      simp only [Except.ok.injEq, Prod.mk.injEq]
      constructor
      · rintro ⟨rfl, rfl⟩; exact ⟨d₂, ⟨rfl, rfl⟩, rfl⟩
      · rintro ⟨d, ⟨rfl, rfl⟩, rfl⟩; exact ⟨rfl, rfl⟩

theorem read_iff {table : Table} {error : Option Problem} {sig : Node} {blocks rest : List Node} {d : Data} :
    resourceResult s parent outer table error sig blocks = .ok (rest, d) ↔
      ∃ x ws, ResourceRead s parent table error sig blocks rest x ws ∧ d = data x ws := by
  unfold resourceResult
  simp only
  by_cases hr : (resourceParts sig.text).action.isSome = true
  · rw [if_pos hr]
    unfold redirectResult
    rw [show (data ⟨{ name := (resourceParts sig.text).name, uri := (resourceParts sig.text).uri }, table, error⟩ []).table = table from rfl]
    have key : ∀ a (v : List Action.Warning),
        addAction a v (data ⟨{ name := (resourceParts sig.text).name, uri := (resourceParts sig.text).uri }, table, error⟩ []) =
          data ⟨{ name := (resourceParts sig.text).name, uri := (resourceParts sig.text).uri, actions := [a] }, table, error⟩ (v.map .action) := by
      intro a v; simp [addAction, data]
    constructor
    · intro h
      cases ha : actionResult (s.world table) parent outer sig (blocks.takeWhile Action.go) with
      | error e => rw [ha] at h; cases h
      | ok r =>
        rw [ha] at h
        simp only [Except.ok.injEq, Prod.mk.injEq] at h
        obtain ⟨a, v, h1, rfl⟩ := (Action.read_iff take_go).mp ha
        rw [key, finished_iff] at h
        obtain ⟨h2, y, b, h3, rfl⟩ := h
        exact ⟨_, _, .action (headLine_iff.mpr ⟨rfl, rfl, hr.symm⟩) (ends_until.mpr ⟨rfl, h2.symm⟩) h1 h3, rfl⟩
    · rintro ⟨x, ws, h, rfl⟩
      cases h with
      | action h1 h2 h3 h4 =>
        obtain ⟨rfl, rfl, -⟩ := headLine_iff.mp h1
        obtain ⟨rfl, rfl⟩ := ends_until.mp h2
        rw [(Action.read_iff take_go).mpr ⟨_, _, h3, rfl⟩]
        simp only
        rw [key, finished_iff.mpr ⟨_, _, h4, rfl⟩]
      | resource h1 =>
        have := (headLine_iff.mp h1).2.2
        rw [hr] at this; cases this
  · rw [if_neg hr, runResult_iff]
    have hr : (resourceParts sig.text).action.isSome = false := by simpa using hr
    constructor
    · rintro ⟨d₁, d₂, h1, h2, h3⟩
      obtain ⟨e, g1, rfl⟩ := (describes_iff (t := table)).mp h1
      obtain ⟨x, b, g2, rfl⟩ := (sections_iff (place := .undefined) (Nat.le_refl _) (fun _ => rfl)).mp h2
      obtain ⟨y, c, g3, rfl⟩ := finished_iff.mp h3
      exact ⟨_, _, .resource (headLine_iff.mpr ⟨rfl, rfl, hr.symm⟩) (after_until.mpr ⟨rfl, rfl⟩) g1 g2 g3, by simp⟩
    · rintro ⟨x, ws, h, rfl⟩
      cases h with
      | action h1 =>
        have := (headLine_iff.mp h1).2.2
        rw [hr] at this; cases this
      | resource h1 h2 h3 h4 h5 =>
        obtain ⟨rfl, rfl, -⟩ := headLine_iff.mp h1
        obtain ⟨rfl, rfl⟩ := after_until.mp h2
        exact ⟨_, _, (describes_iff (t := table)).mpr ⟨_, h3, rfl⟩, (sections_iff (place := .undefined) (Nat.le_refl _) (fun _ => rfl)).mpr ⟨_, _, h4, rfl⟩,
          finished_iff.mpr ⟨_, _, h5, by simp⟩⟩

theorem result_suffix {table : Table} {error : Option Problem} {sig : Node} {blocks rest : List Node} {d : Data}
    (h : resourceResult s parent outer table error sig blocks = .ok (rest, d)) : rest <:+ blocks := by
  unfold resourceResult at h
  simp only at h
  split at h
  · unfold redirectResult at h
    split at h
    · cases h
    · cases h; exact List.dropWhile_suffix _
  · obtain ⟨d₁, d₂, -, h2, -⟩ := runResult_iff.mp h
    exact (Payload.run_suffix section_suffix _ _ _ _ _ _ h2).trans (List.dropWhile_suffix _)

end Verif.Resource
