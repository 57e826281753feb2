import Verif.Proof.MsonLines
import Verif.Proof.Headers
import Verif.Proof.RecogniseCapture
import Verif.Spec.MsonSections

/-! # Type sections, `One of` and `Include` -/

namespace Verif.MsonParser
open Verif Verif.Text Verif.Section Verif.Recognition Verif.Signature Verif.Spec Verif.Spec.MsonParser Verif.Props
open Verif.Mson (Base TypeDef Context)
open Verif.DataStructure (Klass Element)
open Verif.Headers (iEqual_iff)

theorem signed_iff {t : Traits} {n : Node} {sig : Signature} {ws : List Warning}
    (hu : SignatureLine.Usual t) : readSignature t n = .ok (sig, ws) ↔
    ∃ line rest s, Signed t n line rest s ws ∧ sig = { s with remainingContent := rest } := by
  unfold readSignature Signed
  rw [signatureOf_iff hu]
  constructor
  · rintro ⟨s, h1, h2⟩
    exact ⟨_, _, s, ⟨_, firstLine_iff.mpr rfl, trimmed_iff.mpr rfl, Payload.remainder_iff.mpr rfl, h1⟩, h2⟩
  · rintro ⟨line, rest, s, ⟨l, h1, h2, h3, h4⟩, h5⟩
    rw [firstLine_iff] at h1; subst h1
    rw [trimmed_iff] at h2; subst h2
    rw [Payload.remainder_iff] at h3; subst h3
    exact ⟨s, h4, h5⟩

theorem other_word {id a b : Bytes} (h : iEqual id a = true) (hab : iEqual a b = false) : iEqual id b = false := by
  cases hb : iEqual id b with
  | false => rfl
  | true =>
    have : iEqual a b = true := by
      simp only [iEqual, beq_iff_eq] at h hb ⊢
      exact h.symm.trans hb
    rw [hab] at this; cases this

theorem named_final {b : Base} {sig : Signature} {k : Klass} (h : Named b sig.identifier k) (hk : k ≠ .members) (o : Out Draft)
    (hb : o.node.base = b) : typeSectionFinal sig o =
      ({ o with
        node := { o.node with
          klass := k
          value := (if (!sig.values.isEmpty || !sig.value.isEmpty) && isPrimitive b then sig.value else o.node.value) ++
            if isPrimitive b then sig.remainingContent else []
          elements := o.node.elements ++ if (!sig.values.isEmpty || !sig.value.isEmpty) && isValue b then sig.values.map bare else [] }
        warnings := o.warnings ++ if (!sig.values.isEmpty || !sig.value.isEmpty) && isObject b then [.objectValues] else [] }, true) := by
  subst hb
  cases h with
  | default h =>
    rw [← iEqual_iff] at h
    unfold typeSectionFinal
    simp only [h, if_true]
    rfl
  | sample h =>
    rw [← iEqual_iff] at h
    unfold typeSectionFinal
    simp only [h, other_word (b := str "Default") h (by decide), if_true, Bool.false_eq_true, if_false]
    rfl
  | items _ _ => exact absurd rfl hk
  | properties _ _ => exact absurd rfl hk

theorem items_word {id : Bytes} (h : CaseEq id (str "Items") ∨ CaseEq id (str "Members")) : iEqual id (str "Default") = false ∧
    iEqual id (str "Sample") = false ∧ (iEqual id (str "Items") || iEqual id (str "Members")) = true := by
  rcases h with h | h <;> rw [← iEqual_iff] at h <;>
    exact ⟨other_word h (by decide), other_word h (by decide), by simp [h]⟩

theorem properties_word {id : Bytes} (h : CaseEq id (str "Properties")) : iEqual id (str "Default") = false ∧
    iEqual id (str "Sample") = false ∧ (iEqual id (str "Items") || iEqual id (str "Members")) = false ∧
    iEqual id (str "Properties") = true := by
  rw [← iEqual_iff] at h
  exact ⟨other_word h (by decide), other_word h (by decide), by
    rw [other_word (b := str "Items") h (by decide), other_word (b := str "Members") h (by decide)]; rfl, h⟩

theorem members_final {b : Base} {sig : Signature} (h : Named b sig.identifier .members) (o : Out Draft)
    (hb : o.node.base = b) : typeSectionFinal sig o = ({ o with node := { o.node with klass := .members } }, true) := by
  subst hb
  unfold typeSectionFinal
  cases h with
  | items h hb =>
    obtain ⟨h1, h2, h3⟩ := items_word h
    simp only [h1, h2, h3, isValue_iff.mpr hb, Bool.false_eq_true, if_false, if_true, Bool.not_true]
  | properties h hb =>
    obtain ⟨h1, h2, h3, h4⟩ := properties_word h
    simp only [h1, h2, h3, h4, isObject_iff.mpr hb, Bool.false_eq_true, if_false, if_true, Bool.not_true]

theorem bool_false {b : Bool} {P : Prop} (h : b = true ↔ P) (hp : ¬ P) : b = false := by
  cases b with
  | false => rfl
  | true => exact absurd (h.mp rfl) hp

theorem misplaced_final {b : Base} {sig : Signature} (h : Misplaced b sig.identifier) (o : Out Draft)
    (hb : o.node.base = b) : typeSectionFinal sig o = (o.warn [.notAllowed sig.identifier], false) := by
  subst hb
  unfold typeSectionFinal
  cases h with
  | items h hb =>
    obtain ⟨h1, h2, h3⟩ := items_word h
    simp only [h1, h2, h3, bool_false isValue_iff hb, Bool.false_eq_true, if_false, if_true, Bool.not_false]
  | properties h hb =>
    obtain ⟨h1, h2, h3, h4⟩ := properties_word h
    simp only [h1, h2, h3, h4, bool_false isObject_iff hb, Bool.false_eq_true, if_false, if_true, Bool.not_false]

theorem unknown_final {b : Base} {sig : Signature} (h : ∀ k, ¬ Named b sig.identifier k) (h' : ¬ Misplaced b sig.identifier) (o : Out Draft) :
    typeSectionFinal sig o = (o, true) := by
  unfold typeSectionFinal
  have h1 : iEqual sig.identifier (str "Default") = false := bool_false iEqual_iff fun hc => h _ (.default hc)
  have h2 : iEqual sig.identifier (str "Sample") = false := bool_false iEqual_iff fun hc => h _ (.sample hc)
  have h0 : ¬ (CaseEq sig.identifier (str "Items") ∨ CaseEq sig.identifier (str "Members")) := by
    intro hc
    by_cases hb : ListBase b
    · exact h _ (.items hc hb)
    · exact h' (.items hc hb)
  have h3 : iEqual sig.identifier (str "Items") = false := bool_false iEqual_iff fun hc => h0 (.inl hc)
  have h4 : iEqual sig.identifier (str "Members") = false := bool_false iEqual_iff fun hc => h0 (.inr hc)
  have h5 : iEqual sig.identifier (str "Properties") = false := by
    refine bool_false iEqual_iff fun hc => ?_
    by_cases hb : ObjectBase b
    · exact h _ (.properties hc hb)
    · exact h' (.properties hc hb)
  simp only [h1, h2, h3, h4, h5, Bool.false_eq_true, if_false, Bool.or_self]

theorem empty_given {sig : Signature} : (!sig.values.isEmpty || !sig.value.isEmpty) = true ↔ sig.values ≠ [] ∨ sig.value ≠ [] := by
  cases sig.values <;> cases sig.value <;> simp

theorem heading_final {b : Base} {sig : Signature} {rest : Bytes} {d : Draft} {vs : List Warning} (h : Heading b sig rest d vs)
    (types : Context) (ws : List Warning) :
    typeSectionFinal { sig with remainingContent := rest } ⟨{ base := b }, types, ws⟩ = (⟨d, types, ws ++ vs⟩, true) := by
  cases h with
  | text hn hk hb =>
    rw [named_final (sig := { sig with remainingContent := rest }) hn hk _ rfl]
    have h1 := bool_false isValue_iff (scalar_not hb).2.1
    have h2 := bool_false isObject_iff (scalar_not hb).1
    simp only [isPrimitive_iff.mpr hb, h1, h2, Bool.and_true, Bool.and_false, Bool.false_eq_true, if_false, if_true, List.append_nil]
    cases hv : sig.value with
    | nil => simp
    | cons c v => simp
  | list hn hk hb =>
    rw [named_final (sig := { sig with remainingContent := rest }) hn hk _ rfl]
    have h1 := bool_false isPrimitive_iff (list_not hb).2.1
    have h2 := bool_false isObject_iff (list_not hb).1
    simp only [isValue_iff.mpr hb, h1, h2, Bool.and_true, Bool.and_false, Bool.false_eq_true, if_false, List.append_nil, List.nil_append]
    cases hv : sig.values with
    | nil => simp
    | cons c v => simp
  | object hn hk hb h1 h2 =>
    rw [named_final (sig := { sig with remainingContent := rest }) hn hk _ rfl]
    simp [h1, h2, bool_false isPrimitive_iff (object_not hb).2.1]
  | valued hn hk hb h1 =>
    rw [named_final (sig := { sig with remainingContent := rest }) hn hk _ rfl]
    have h2 := empty_given.mpr h1
    simp only [h2, bool_false isPrimitive_iff (object_not hb).2.1, bool_false isValue_iff (object_not hb).1, isObject_iff.mpr hb,
      Bool.and_true, Bool.and_false, Bool.false_eq_true, if_false, if_true, List.append_nil]
  | other hn hk h1 h2 h3 =>
    rw [named_final (sig := { sig with remainingContent := rest }) hn hk _ rfl]
    simp [bool_false isPrimitive_iff h1, bool_false isValue_iff h2, bool_false isObject_iff h3]
  | members hn => rw [members_final (sig := { sig with remainingContent := rest }) hn _ rfl]; simp
  | unknown h1 h2 => rw [unknown_final (sig := { sig with remainingContent := rest }) h1 h2]; simp

theorem heading_total (b : Base) (sig : Signature) (rest : Bytes) : (∃ d ws, Heading b sig rest d ws) ∨ Misplaced b sig.identifier := by
  by_cases hm : Misplaced b sig.identifier
  · exact .inr hm
  refine .inl ?_
  by_cases hn : ∃ k, Named b sig.identifier k
  case neg => exact ⟨_, _, .unknown (fun k hk => hn ⟨k, hk⟩) hm⟩
  obtain ⟨k, hn⟩ := hn
  by_cases hk : k = .members
  · subst hk; exact ⟨_, _, .members hn⟩
  by_cases h1 : ScalarBase b
  · exact ⟨_, _, .text hn hk h1⟩
  by_cases h2 : ListBase b
  · exact ⟨_, _, .list hn hk h2⟩
  by_cases h3 : ObjectBase b
  case neg => exact ⟨_, _, .other hn hk h1 h2 h3⟩
  by_cases h4 : sig.values = [] ∧ sig.value = []
  · exact ⟨_, _, .object hn hk h3 h4.1 h4.2⟩
  · refine ⟨_, _, .valued hn hk h3 ?_⟩
    by_cases h5 : sig.values = []
    · exact .inr fun h6 => h4 ⟨h5, h6⟩
    · exact .inl h5

/-- The first line of a type section. -/
theorem sign_iff {n : Node} {b : Base} {types : Context} {c : Bool} {o : Out Draft} :
    typeSectionSign n ⟨{ base := b }, types, []⟩ = .ok (c, o) ↔ ∃ line rest sig sw, Signed typeSectionTraits n line rest sig sw ∧
      (c = false ∧ Misplaced b sig.identifier ∧
          o = ⟨{ base := b }, types, sw ++ [.notAllowed sig.identifier]⟩ ∨
        c = true ∧ ∃ d ws, Heading b sig rest d ws ∧ o = ⟨d, types, sw ++ ws⟩) := by
  unfold typeSectionSign
  constructor
  · intro h
    split at h
    · cases h
    · rename_i sig ws hr
      obtain ⟨line, rest, s, hs, rfl⟩ := (signed_iff (by decide)).mp hr
      refine ⟨line, rest, s, _, hs, ?_⟩
      simp only [Out.warn, List.nil_append] at h
      rcases heading_total b s rest with ⟨d, vs, hh⟩ | hm
      · rw [heading_final hh] at h
        cases h
        exact .inr ⟨rfl, d, vs, hh, rfl⟩
      · rw [misplaced_final (sig := { s with remainingContent := rest }) hm _ rfl] at h
        cases h
        exact .inl ⟨rfl, hm, rfl⟩
  · rintro ⟨line, rest, s, sw, hs, h⟩
    rw [(signed_iff (by decide)).mpr ⟨line, rest, s, hs, rfl⟩]
    simp only [Out.warn, List.nil_append]
    rcases h with ⟨rfl, hm, rfl⟩ | ⟨rfl, d, ws, hh, rfl⟩
    · rw [misplaced_final (sig := { s with remainingContent := rest }) hm _ rfl]; rfl
    · rw [heading_final hh]

/-! ## An item without description -/

theorem walk_never (blocks : List Node) : blocks.takeWhile never = [] ∧ blocks.dropWhile never = blocks := by
  cases blocks <;> simp [never]

theorem item_iff {α : Type} {sg f : Node → Out α → Except Stop (Bool × Out α)} {fin : Out α → Out α} {n : Node} {a o : Out α} :
    itemResult sg never noDescription f fin n a = .ok o ↔ ∃ sig blocks, Spec.Payload.Parts n sig blocks ∧
      (sg sig a = .ok (false, o) ∨ ∃ o₁ rest o₂, sg sig a = .ok (true, o₁) ∧ walk f blocks o₁ = .ok (rest, o₂) ∧ o = fin o₂) := by
  have key : ∀ sig blocks, listResult sg never noDescription f fin sig blocks a = .ok o ↔
      (sg sig a = .ok (false, o) ∨ ∃ o₁ rest o₂, sg sig a = .ok (true, o₁) ∧ walk f blocks o₁ = .ok (rest, o₂) ∧ o = fin o₂) := by
    intro sig blocks
    unfold listResult
    cases sg sig a with
    | error e => simp
    | ok q =>
      obtain ⟨c, o₁⟩ := q
      cases c with
      | false => simp
      | true =>
        simp only [walk_never, walk, Except.ok.injEq, Prod.mk.injEq, Bool.true_eq_false, false_and, false_or, true_and]
        cases hw : walk f blocks o₁ with
        | error e =>
          constructor
          · intro h; cases h
          · rintro ⟨x, r, y, hx, hy, _⟩; subst hx; rw [hw] at hy; cases hy
        | ok q =>
          obtain ⟨r, o₂⟩ := q
          constructor
          · intro h; cases h; exact ⟨o₁, r, o₂, rfl, hw, rfl⟩
          · rintro ⟨x, r', y, hx, hy, rfl⟩; subst hx; rw [hw] at hy; cases hy; rfl
  unfold itemResult
  constructor
  · intro h
    split at h
    · rename_i hk
      split at h
      · cases h
      · rename_i sig blocks hr
        exact ⟨sig, blocks, Payload.parts_iff.mpr ⟨hk, hr⟩, (key sig blocks).mp h⟩
    · cases h
  · rintro ⟨sig, blocks, hp, h⟩
    obtain ⟨hk, hr⟩ := Payload.parts_iff.mp hp
    rw [if_pos hk, hr]
    exact (key sig blocks).mpr h

/-! ## Blocks of a type section -/

/-- The three sections. -/
def Known (t : SectionType) : Prop := t = .msonPropertyMembers ∨ t = .msonValueMembers ∨ t = .msonSampleDefault

theorem property_thrown {w : World} {n : Node} (h : n.kind ≠ .listItem) (types : Context) :
    (meaning w).property n types = .error .thrown := by
  rw [(meaning_layer w n).property]
  simp [layer, Lens.read, itemResult, h]

theorem value_thrown {w : World} {n : Node} (h : n.kind ≠ .listItem) (types : Context) :
    (meaning w).value n types = .error .thrown := by
  rw [(meaning_layer w n).value]
  simp [layer, Lens.read, itemResult, h]

theorem item_of {n : Node} : IsItem n ↔ IsPlain n ∨ ∃ t, IsPart n t := by
  constructor
  · rintro ⟨h1, h2, h3⟩
    cases role n with
    | header h => rw [h1] at h; cases h
    | text h => exact absurd h1 h.2
    | plain h => exact .inl h
    | include_ h => exact absurd h h2
    | oneOf h => exact absurd h h3
    | part h => exact .inr ⟨_, h⟩
  · rintro (h | ⟨t, h⟩)
    · exact ⟨h.1, h.2.2.2.2.2, h.2.2.2.2.1⟩
    · refine ⟨part_item h, ?_, ?_⟩
      · intro hi; have := (part_types h).1; rw [(include_types hi).1] at this; cases this
      · intro hi; have := (part_types h).2.1; rw [(oneOf_types hi).2.1] at this; cases this

theorem nested_item {n : Node} (h : IsItem n) : typeSectionNested n = .mson := by
  rcases item_of.mp h with h | ⟨t, h⟩
  · exact nested_plain h
  · exact nested_part h

/-- What a block of a section is. -/
inductive Kind (n : Node) : Prop
  | header (h : n.kind = .header)
  | text (h : IsText n)
  | item (h : IsItem n)
  | include_ (h : IsInclude n)
  | oneOf (h : IsOneOf n)

theorem kind_of (n : Node) : Kind n := by
  cases role n with
  | header h => exact .header h
  | text h => exact .text h
  | plain h => exact .item (item_of.mpr (.inl h))
  | include_ h => exact .include_ h
  | oneOf h => exact .oneOf h
  | part h => exact .item (item_of.mpr (.inr ⟨_, h⟩))

/-- The result of a block of a section. -/
def PartStep (w : World) (t : SectionType) (d : Draft) (types : Context) (n : Node) (c : Bool) (o : Out Draft) : Prop :=
  (c = true ∧ ((∃ e types' ws, Gives w t d.base n types e types' ws ∧ o = ⟨{ d with elements := d.elements ++ [e] }, types', ws⟩) ∨
    (t = .msonSampleDefault ∧ ScalarBase d.base ∧ (IsText n ∨ IsItem n) ∧
      ∃ v, Follows d.value (ByteBuffer.mapBytesRangeSet n.sourceMap w.source) v ∧ o = ⟨{ d with value := v }, types, []⟩))) ∨
  (c = false ∧ ∃ ws, Closes t d.base n ws ∧ o = ⟨d, types, ws⟩)

theorem partStep_iff {w : World} {t : SectionType} (ht : Known t) {d : Draft} {types : Context} {n : Node} {c : Bool} {o : Out Draft} :
    typeSectionStep w (meaning w) t n ⟨d, types, []⟩ = .ok (c, o) ↔ PartStep w t d types n c o := by
  have hob := oneOf_not (n := n)
  have hin := include_not (n := n)
  constructor
  · intro h
    unfold typeSectionStep at h
    simp only at h
    cases kind_of n with
    | header hh =>
      rw [if_pos hh] at h; cases h
      exact .inr ⟨rfl, [], .header hh, rfl⟩
    | text hh =>
      rw [if_neg hh.1, nested_text hh] at h
      rcases ht with rfl | rfl | rfl
      · simp [take, property_thrown hh.2] at h
      · simp [take, value_thrown hh.2] at h
      · simp only [reduceCtorEq, or_self, if_false, if_true, hh.2, and_false] at h
        split at h
        · rename_i hp
          split at h
          · cases h
          · rename_i s hs
            cases h
            exact .inl ⟨rfl, .inr ⟨rfl, isPrimitive_iff.mp hp, .inl hh, _, follows_iff.mpr ⟨s, hs, rfl⟩, rfl⟩⟩
        · rename_i hp
          cases h
          exact .inr ⟨rfl, [], .text hh rfl (fun hb => hp (isPrimitive_iff.mpr hb)), rfl⟩
    | item hh =>
      have hk : n.kind ≠ .header := by rw [hh.1]; decide
      rw [if_neg hk, nested_item hh] at h
      rcases ht with rfl | rfl | rfl
      · simp only [true_or, if_true, take_iff] at h
        obtain ⟨rfl, q, hq, rfl⟩ := h
        exact .inl ⟨rfl, .inl ⟨_, _, _, .property hh (.inl rfl) (readProperty_iff.mpr hq), rfl⟩⟩
      · simp only [or_true, if_true, reduceCtorEq, if_false, take_iff] at h
        obtain ⟨rfl, q, hq, rfl⟩ := h
        exact .inl ⟨rfl, .inl ⟨_, _, _, .value hh (.inl rfl) (readValue_iff.mpr hq), rfl⟩⟩
      · simp only [reduceCtorEq, or_self, if_false, if_true, hh.1, and_true] at h
        split at h
        · rename_i hb
          rw [take_iff] at h
          obtain ⟨rfl, q, hq, rfl⟩ := h
          exact .inl ⟨rfl, .inl ⟨_, _, _, .value hh (.inr ⟨rfl, isValue_iff.mp hb⟩) (readValue_iff.mpr hq), rfl⟩⟩
        · rename_i hv
          split at h
          · rename_i hb
            rw [take_iff] at h
            obtain ⟨rfl, q, hq, rfl⟩ := h
            exact .inl ⟨rfl, .inl ⟨_, _, _, .property hh (.inr ⟨rfl, isObject_iff.mp hb⟩) (readProperty_iff.mpr hq), rfl⟩⟩
          · rename_i ho
            split at h
            · rename_i hp
              split at h
              · cases h
              · rename_i s hs
                cases h
                exact .inl ⟨rfl, .inr ⟨rfl, isPrimitive_iff.mp hp, .inr hh, _, follows_iff.mpr ⟨s, hs, rfl⟩, rfl⟩⟩
            · rename_i hp
              cases h
              exact .inr ⟨rfl, [], .untyped hh rfl (fun hb => hp (isPrimitive_iff.mpr hb)) (fun hb => hv (isValue_iff.mpr hb))
                (fun hb => ho (isObject_iff.mpr hb)), rfl⟩
    | include_ hh =>
      rw [if_neg (hin hh).2.2.2.2, nested_include hh] at h
      rcases ht with rfl | rfl | rfl
      · simp only [true_or, if_true, take_iff] at h
        obtain ⟨rfl, q, hq, rfl⟩ := h
        exact .inl ⟨rfl, .inl ⟨_, _, _, .include_ hh (.inl rfl) (readInclude_iff.mpr hq), rfl⟩⟩
      · simp only [or_true, if_true, take_iff] at h
        obtain ⟨rfl, q, hq, rfl⟩ := h
        exact .inl ⟨rfl, .inl ⟨_, _, _, .include_ hh (.inr rfl) (readInclude_iff.mpr hq), rfl⟩⟩
      · simp only [reduceCtorEq, or_self, if_false, if_true] at h
        cases h
        exact .inr ⟨rfl, _, .sampleInclude hh rfl, rfl⟩
    | oneOf hh =>
      rw [if_neg (hob hh).2.2.2.2, nested_oneOf hh] at h
      rcases ht with rfl | rfl | rfl
      · simp only [true_or, if_true, ne_eq, not_true_eq_false, if_false, take_iff] at h
        obtain ⟨rfl, q, hq, rfl⟩ := h
        exact .inl ⟨rfl, .inl ⟨_, _, _, .oneOf hh rfl (readOneOf_iff.mpr hq), rfl⟩⟩
      · simp only [or_true, if_true, ne_eq, reduceCtorEq, not_false_eq_true] at h
        cases h
        exact .inr ⟨rfl, _, .oneOf hh rfl, rfl⟩
      · simp only [reduceCtorEq, or_self, if_false, if_true] at h
        cases h
        exact .inr ⟨rfl, _, .sampleOneOf hh rfl, rfl⟩
  · rintro (⟨rfl, ⟨e, types', ws, hg, rfl⟩ | ⟨rfl, hb, hn, v, hv, rfl⟩⟩ | ⟨rfl, ws, hc, rfl⟩)
    · cases hg with
      | property hi ht' hr =>
        have hk : n.kind ≠ .header := by rw [hi.1]; decide
        unfold typeSectionStep
        simp only
        rw [if_neg hk, nested_item hi]
        rcases ht' with rfl | ⟨rfl, hb⟩
        · simp only [true_or, if_true]
          exact take_iff.mpr ⟨rfl, _, readProperty_iff.mp hr, rfl⟩
        · simp only [reduceCtorEq, or_self, if_false, if_true, hi.1, and_true, isObject_iff.mpr hb,
            bool_false isValue_iff (object_not hb).1, Bool.false_eq_true]
          exact take_iff.mpr ⟨rfl, _, readProperty_iff.mp hr, rfl⟩
      | value hi ht' hr =>
        have hk : n.kind ≠ .header := by rw [hi.1]; decide
        unfold typeSectionStep
        simp only
        rw [if_neg hk, nested_item hi]
        rcases ht' with rfl | ⟨rfl, hb⟩
        · simp only [or_true, if_true, reduceCtorEq, if_false]
          exact take_iff.mpr ⟨rfl, _, readValue_iff.mp hr, rfl⟩
        · simp only [reduceCtorEq, or_self, if_false, if_true, hi.1, and_true, isValue_iff.mpr hb]
          exact take_iff.mpr ⟨rfl, _, readValue_iff.mp hr, rfl⟩
      | include_ hi ht' hr =>
        unfold typeSectionStep
        simp only
        rw [if_neg (hin hi).2.2.2.2, nested_include hi, if_pos ht']
        exact take_iff.mpr ⟨rfl, _, readInclude_iff.mp hr, rfl⟩
      | oneOf hi ht' hr =>
        subst ht'
        unfold typeSectionStep
        simp only
        rw [if_neg (hob hi).2.2.2.2, nested_oneOf hi]
        simp only [true_or, if_true, ne_eq, not_true_eq_false, if_false]
        exact take_iff.mpr ⟨rfl, _, readOneOf_iff.mp hr, rfl⟩
    · obtain ⟨s, hs, rfl⟩ := follows_iff.mp hv
      unfold typeSectionStep
      simp only
      have h1 : n.kind ≠ .header ∧ typeSectionNested n = .mson := by
        rcases hn with hn | hn
        · exact ⟨hn.1, nested_text hn⟩
        · exact ⟨by rw [hn.1]; decide, nested_item hn⟩
      rw [if_neg h1.1, h1.2]
      simp only [reduceCtorEq, or_self, if_false, if_true, isPrimitive_iff.mpr hb, bool_false isValue_iff (scalar_not hb).2.1,
        bool_false isObject_iff (scalar_not hb).1, Bool.false_eq_true, false_and, hs]
      rfl
    · unfold typeSectionStep
      simp only
      cases hc with
      | header hh => rw [if_pos hh]
      | oneOf hh ht' =>
        subst ht'
        rw [if_neg (hob hh).2.2.2.2, nested_oneOf hh]
        simp [Out.warn]
      | sampleInclude hh ht' =>
        subst ht'
        rw [if_neg (hin hh).2.2.2.2, nested_include hh]
        simp [Out.warn]
      | sampleOneOf hh ht' =>
        subst ht'
        rw [if_neg (hob hh).2.2.2.2, nested_oneOf hh]
        simp [Out.warn]
      | text hh ht' hb =>
        subst ht'
        rw [if_neg hh.1, nested_text hh]
        simp [hh.2, bool_false isPrimitive_iff hb]
      | untyped hh ht' h1 h2 h3 =>
        subst ht'
        rw [if_neg (by rw [hh.1]; decide), nested_item hh]
        simp [bool_false isPrimitive_iff h1, bool_false isValue_iff h2, bool_false isObject_iff h3]

theorem partBlocks_iff {w : World} {t : SectionType} (ht : Known t) : ∀ {ns : List Node} {d : Draft} {types : Context} {o : Out Draft},
    (∃ rest, walk (typeSectionStep w (meaning w) t) ns ⟨d, types, []⟩ = .ok (rest, o)) ↔
      ∃ v es types' ws, PartBlocks w t d.base d.value d.elements types ns v es types' ws ∧
        o = ⟨{ d with value := v, elements := es }, types', ws⟩
  | [], d, types, o => by
    simp only [walk, Except.ok.injEq, Prod.mk.injEq]
    constructor
    · rintro ⟨_, _, rfl⟩; exact ⟨_, _, _, _, .done, rfl⟩
    · rintro ⟨v, es, types', ws, h, rfl⟩; cases h; exact ⟨[], rfl, rfl⟩
  | n :: ns, d, types, o => by
    simp only [walk]
    constructor
    · rintro ⟨rest, h⟩
      split at h
      · cases h
      · rename_i o₁ h1
        obtain ⟨d₁, types₁, ws₁⟩ := o₁
        rw [walk_frame (typeSectionStep_frame w (meaning w) t)] at h
        cases hw : walk (typeSectionStep w (meaning w) t) ns ⟨d₁, types₁, []⟩ with
        | error e => rw [hw] at h; cases h
        | ok q =>
          obtain ⟨r, o₂⟩ := q
          rw [hw] at h; cases h
          obtain ⟨v, es, types', ws, hb, rfl⟩ := (partBlocks_iff ht).mp ⟨_, hw⟩
          rcases (partStep_iff ht).mp h1 with ⟨_, ⟨e, types', ws', hg, he⟩ | ⟨h2, h3, h4, v', h5, he⟩⟩ | ⟨hf, _⟩
          · cases he
            exact ⟨_, _, _, _, .element hg hb, rfl⟩
          · cases he
            exact ⟨_, _, _, _, .text h2 h3 h4 h5 hb, by simp [after]⟩
          · cases hf
      · rename_i o₁ h1
        cases h
        rcases (partStep_iff ht).mp h1 with ⟨hf, _⟩ | ⟨_, ws, hc, rfl⟩
        · cases hf
        · exact ⟨_, _, _, _, .closes hc, rfl⟩
    · rintro ⟨v, es, types', ws, h, rfl⟩
      cases h with
      | element hg hb =>
        rw [(partStep_iff ht).mpr (.inl ⟨rfl, .inl ⟨_, _, _, hg, rfl⟩⟩)]
        obtain ⟨r, hr⟩ := (partBlocks_iff ht (d := { d with elements := d.elements ++ [_] })).mpr ⟨_, _, _, _, hb, rfl⟩
        refine ⟨r, ?_⟩
        simp only
        rw [walk_frame (typeSectionStep_frame w (meaning w) t), hr]
        rfl
      | text h2 h3 h4 h5 hb =>
        rw [(partStep_iff ht).mpr (.inl ⟨rfl, .inr ⟨h2, h3, h4, _, h5, rfl⟩⟩)]
        exact (partBlocks_iff ht (d := { d with value := _ })).mpr ⟨_, _, _, _, hb, rfl⟩
      | closes hc =>
        rw [(partStep_iff ht).mpr (.inr ⟨rfl, _, hc, rfl⟩)]
        exact ⟨_, rfl⟩

/-- A type section. -/
theorem part_spec {w : World} {t : SectionType} (ht : Known t) {b : Base} {n : Node} {types : Context} {o : Out Draft} :
    ReadPart w t b n types o ↔ ∃ sig blocks line rest s sw, Spec.Payload.Parts n sig blocks ∧ Signed typeSectionTraits sig line rest s sw ∧
      ((Misplaced b s.identifier ∧ o = ⟨{ base := b }, types, sw ++ [.notAllowed s.identifier]⟩) ∨
        ∃ d hs v es types' ws, Heading b s rest d hs ∧ PartBlocks w t b d.value d.elements types blocks v es types' ws ∧
          o = ⟨{ d with value := v, elements := es }, types', sw ++ hs ++ ws⟩) := by
  have hbase : ∀ {s rest d hs}, Heading b s rest d hs → d.base = b := by intro s rest d hs h; cases h <;> rfl
  rw [readPart_iff, (meaning_layer w n).typeSection]
  simp only [layer]
  rw [item_iff]
  constructor
  · rintro ⟨sig, blocks, hp, h | ⟨o₁, r, o₂, h1, h2, rfl⟩⟩
    · obtain ⟨line, rest, s, sw, hs, ⟨_, hm, rfl⟩ | ⟨hf, _⟩⟩ := sign_iff.mp h
      · exact ⟨sig, blocks, line, rest, s, _, hp, hs, .inl ⟨hm, rfl⟩⟩
      · cases hf
    · obtain ⟨line, rest, s, sw, hs, ⟨hf, _⟩ | ⟨_, d, hs', hh, rfl⟩⟩ := sign_iff.mp h1
      · cases hf
      · rw [walk_frame (typeSectionStep_frame w (meaning w) t)] at h2
        cases hw : walk (typeSectionStep w (meaning w) t) blocks ⟨d, types, []⟩ with
        | error e => rw [hw] at h2; cases h2
        | ok q =>
          obtain ⟨r', o₃⟩ := q
          rw [hw] at h2; cases h2
          obtain ⟨v, es, types', ws, hb, rfl⟩ := (partBlocks_iff ht).mp ⟨_, hw⟩
          rw [hbase hh] at hb
          exact ⟨sig, blocks, line, rest, s, _, hp, hs, .inr ⟨d, hs', v, es, types', ws, hh, hb, rfl⟩⟩
  · rintro ⟨sig, blocks, line, rest, s, sw, hp, hs, ⟨hm, rfl⟩ | ⟨d, hs', v, es, types', ws, hh, hb, rfl⟩⟩
    · exact ⟨sig, blocks, hp, .inl (sign_iff.mpr ⟨line, rest, s, sw, hs, .inl ⟨rfl, hm, rfl⟩⟩)⟩
    · rw [← hbase hh] at hb
      obtain ⟨r, hr⟩ := (partBlocks_iff ht).mpr ⟨_, _, _, _, hb, rfl⟩
      refine ⟨sig, blocks, hp, .inr ⟨_, r, _, sign_iff.mpr ⟨line, rest, s, sw, hs, .inr ⟨rfl, d, hs', hh, rfl⟩⟩, ?_, rfl⟩⟩
      rw [walk_frame (typeSectionStep_frame w (meaning w) t), hr]
      rfl

/-! ## `One of` -/

theorem otherHeading_iff {n : Node} (h : n.kind = .header) : OtherHeading n ↔
    recognise.typeSectionType n = .msonSampleDefault ∨ recognise.typeSectionType n = .msonValueMembers := by
  by_cases ht : n.text = []
  · have hu : recognise.typeSectionType n = .undefined := by
      unfold Recognise.typeSectionType
      rw [if_neg (by
        rintro (h' | h')
        · exact h'.2 ht
        · rw [h] at h'; cases h'.1)]
    rw [hu]
    simp only [reduceCtorEq, or_self, iff_false]
    rintro ⟨_, l, s, h1, h2, h3⟩
    refine (heading_iff h).mpr ⟨h, l, s, h1, h2, ?_⟩ hu
    rcases h3 with h3 | h3 | h3
    · exact .inl h3
    · exact .inr (.inl h3)
    · exact .inr (.inr (.inl h3))
  · have hv : recognise.typeSectionType n = typeSectionOf n := by
      unfold Recognise.typeSectionType
      rw [if_pos (.inl ⟨h, ht⟩)]
      rfl
    rw [hv]
    unfold typeSectionOf OtherHeading
    have hl : (∃ l s, Spec.Recognition.FirstLine n.text l ∧ Spec.Recognition.Seen l s ∧ (Spec.Recognition.DefaultLine s ∨ Spec.Recognition.SampleLine s ∨
        Spec.Recognition.ItemsLine s)) ↔ (Spec.Recognition.DefaultLine (Regex.cstr (trim (getFirstLine n.text).1)) ∨
        Spec.Recognition.SampleLine (Regex.cstr (trim (getFirstLine n.text).1)) ∨ Spec.Recognition.ItemsLine (Regex.cstr (trim (getFirstLine n.text).1))) := by
      simp only [firstLine_iff, seen_iff]
      constructor
      · rintro ⟨_, _, rfl, rfl, h⟩; exact h
      · intro h; exact ⟨_, _, rfl, rfl, h⟩
    rw [hl]
    simp only [h, ne_eq, ht, not_false_eq_true, and_self, if_true, true_and]
    rw [← m_default, ← m_sample, ← m_valueMembers]
    split
    · rename_i h1; simp only [Bool.or_eq_true] at h1; rcases h1 with h1 | h1 <;> simp [h1]
    · rename_i h1; simp only [Bool.or_eq_true, not_or] at h1
      split
      · rename_i h2; simp [h2]
      · rename_i h2
        split <;> simp [h1, h2]

/-- The result of a block of a `One of`. -/
def ChoiceStep (w : World) (es : List Element) (types : Context) (n : Node) (c : Bool) (o : Out (List Element)) : Prop :=
  (c = true ∧ ((∃ e types' ws, Offers w n types e types' ws ∧ o = ⟨es ++ [e], types', ws⟩) ∨
    (IsText n ∧ o = ⟨es, types, [.unrecognised]⟩) ∨ (n.kind = .header ∧ ¬ IsHeading n ∧ o = ⟨es, types, [.unexpectedHeader]⟩))) ∨
  (c = false ∧ (IsSample n ∨ IsItems n ∨ OtherHeading n) ∧ o = ⟨es, types, []⟩)

theorem choice_header {n : Node} (h : n.kind = .header) : oneOfNested n = recognise.typeSectionType n := by
  have h2 := not_list_types (n := n) (by rw [h]; decide)
  by_cases hu : recognise.typeSectionType n = .undefined
  · simp [oneOfNested, Recognise.first, h2, h, hu]
  · simp [oneOfNested, Recognise.first, h2, h, hu]

theorem choiceStep_iff {w : World} {es : List Element} {types : Context} {n : Node} {c : Bool} {o : Out (List Element)} :
    oneOfStep (meaning w) n ⟨es, types, []⟩ = .ok (c, o) ↔ ChoiceStep w es types n c o := by
  constructor
  · intro h
    unfold oneOfStep at h
    cases role n with
    | header hh =>
      rw [choice_header hh] at h
      rcases typeSection_values n with h' | h' | h' | h'
      · rw [h'] at h
        simp only [hh, if_true, Except.ok.injEq, Prod.mk.injEq] at h
        obtain ⟨rfl, rfl⟩ := h
        exact .inl ⟨rfl, .inr (.inr ⟨hh, fun hi => (heading_iff hh).mpr hi h', rfl⟩)⟩
      · rw [h'] at h; cases h
        exact .inr ⟨rfl, .inr (.inr ((otherHeading_iff hh).mpr (.inl h'))), rfl⟩
      · rw [h'] at h; cases h
        exact .inr ⟨rfl, .inr (.inr ((otherHeading_iff hh).mpr (.inr h'))), rfl⟩
      · rw [h'] at h
        simp [take, read_heading w hh] at h
    | text hh =>
      rw [choice_text hh] at h
      simp only [hh.1, if_false, Except.ok.injEq, Prod.mk.injEq] at h
      obtain ⟨rfl, rfl⟩ := h
      exact .inl ⟨rfl, .inr (.inl ⟨hh, rfl⟩)⟩
    | plain hh =>
      rw [choice_plain hh] at h
      simp only [take_iff] at h
      obtain ⟨rfl, q, hq, rfl⟩ := h
      exact .inl ⟨rfl, .inl ⟨_, _, _, .property hh (readProperty_iff.mpr hq), rfl⟩⟩
    | include_ hh =>
      rw [choice_include hh] at h
      simp only [take_iff] at h
      obtain ⟨rfl, q, hq, rfl⟩ := h
      exact .inl ⟨rfl, .inl ⟨_, _, _, .include_ hh (readInclude_iff.mpr hq), rfl⟩⟩
    | oneOf hh =>
      rw [choice_oneOf hh] at h
      simp only [take_iff] at h
      obtain ⟨rfl, q, hq, rfl⟩ := h
      exact .inl ⟨rfl, .inl ⟨_, _, _, .oneOf hh (readOneOf_iff.mpr hq), rfl⟩⟩
    | part hh =>
      rw [choice_part hh] at h
      cases hh with
      | sample hh => cases h; exact .inr ⟨rfl, .inl hh, rfl⟩
      | items hh => cases h; exact .inr ⟨rfl, .inr (.inl hh), rfl⟩
      | properties hh =>
        simp only [take_iff] at h
        obtain ⟨rfl, q, hq, rfl⟩ := h
        exact .inl ⟨rfl, .inl ⟨_, _, _, .group hh (readPart_iff.mpr hq), rfl⟩⟩
  · unfold oneOfStep
    rintro (⟨rfl, ⟨e, types', ws, hg, rfl⟩ | ⟨hh, rfl⟩ | ⟨hh, hn, rfl⟩⟩ | ⟨rfl, hc, rfl⟩)
    · cases hg with
      | property hh hr => rw [choice_plain hh]; exact take_iff.mpr ⟨rfl, _, readProperty_iff.mp hr, rfl⟩
      | include_ hh hr => rw [choice_include hh]; exact take_iff.mpr ⟨rfl, _, readInclude_iff.mp hr, rfl⟩
      | oneOf hh hr => rw [choice_oneOf hh]; exact take_iff.mpr ⟨rfl, _, readOneOf_iff.mp hr, rfl⟩
      | group hh hr => rw [choice_part (.properties hh)]; exact take_iff.mpr ⟨rfl, _, readPart_iff.mp hr, rfl⟩
    · rw [choice_text hh]; simp [hh.1, Out.warn]
    · have : recognise.typeSectionType n = .undefined := by
        by_cases hu : recognise.typeSectionType n = .undefined
        · exact hu
        · exact absurd ((heading_iff hh).mp hu) hn
      rw [choice_header hh, this]; simp [hh, Out.warn]
    · rcases hc with hc | hc | hc
      · rw [choice_part (.sample hc)]
      · rw [choice_part (.items hc)]
      · rw [choice_header hc.1]
        rcases (otherHeading_iff hc.1).mp hc with h | h <;> rw [h]

theorem choices_iff {w : World} : ∀ {ns : List Node} {es : List Element} {types : Context} {o : Out (List Element)},
    (∃ rest, walk (oneOfStep (meaning w)) ns ⟨es, types, []⟩ = .ok (rest, o)) ↔
      ∃ es' types' ws, Choices w es types ns es' types' ws ∧ o = ⟨es', types', ws⟩
  | [], es, types, o => by
    simp only [walk, Except.ok.injEq, Prod.mk.injEq]
    constructor
    · rintro ⟨_, _, rfl⟩; exact ⟨_, _, _, .done, rfl⟩
    · rintro ⟨es, types', ws, h, rfl⟩; cases h; exact ⟨[], rfl, rfl⟩
  | n :: ns, es, types, o => by
    simp only [walk]
    constructor
    · rintro ⟨rest, h⟩
      split at h
      · cases h
      · rename_i o₁ h1
        obtain ⟨d₁, types₁, ws₁⟩ := o₁
        rw [walk_frame (oneOfStep_frame (meaning w))] at h
        cases hw : walk (oneOfStep (meaning w)) ns ⟨d₁, types₁, []⟩ with
        | error e => rw [hw] at h; cases h
        | ok q =>
          obtain ⟨r, o₂⟩ := q
          rw [hw] at h; cases h
          obtain ⟨es', types', ws, hb, rfl⟩ := choices_iff.mp ⟨_, hw⟩
          rcases choiceStep_iff.mp h1 with ⟨_, ⟨e, types', ws', hg, he⟩ | ⟨h2, he⟩ | ⟨h2, h3, he⟩⟩ | ⟨hf, _⟩
          · cases he; exact ⟨_, _, _, .element hg hb, rfl⟩
          · cases he; exact ⟨_, _, _, .text h2 hb, by simp [after]⟩
          · cases he; exact ⟨_, _, _, .header h2 h3 hb, by simp [after]⟩
          · cases hf
      · rename_i o₁ h1
        cases h
        rcases choiceStep_iff.mp h1 with ⟨hf, _⟩ | ⟨_, hc, rfl⟩
        · cases hf
        · exact ⟨_, _, _, .ends hc, rfl⟩
    · rintro ⟨es', types', ws, h, rfl⟩
      cases h with
      | element hg hb =>
        rw [choiceStep_iff.mpr (.inl ⟨rfl, .inl ⟨_, _, _, hg, rfl⟩⟩)]
        obtain ⟨r, hr⟩ := choices_iff.mpr ⟨_, _, _, hb, rfl⟩
        refine ⟨r, ?_⟩
        simp only
        rw [walk_frame (oneOfStep_frame (meaning w)), hr]
        rfl
      | text h1 hb =>
        rw [choiceStep_iff.mpr (.inl ⟨rfl, .inr (.inl ⟨h1, rfl⟩)⟩)]
        obtain ⟨r, hr⟩ := choices_iff.mpr ⟨_, _, _, hb, rfl⟩
        refine ⟨r, ?_⟩
        simp only
        rw [walk_frame (oneOfStep_frame (meaning w)), hr]
        rfl
      | header h1 h2 hb =>
        rw [choiceStep_iff.mpr (.inl ⟨rfl, .inr (.inr ⟨h1, h2, rfl⟩)⟩)]
        obtain ⟨r, hr⟩ := choices_iff.mpr ⟨_, _, _, hb, rfl⟩
        refine ⟨r, ?_⟩
        simp only
        rw [walk_frame (oneOfStep_frame (meaning w)), hr]
        rfl
      | ends hc =>
        rw [choiceStep_iff.mpr (.inr ⟨rfl, hc, rfl⟩)]
        exact ⟨_, rfl⟩

theorem emptyChoice_iff {es : List Element} {ws : List Warning} : EmptyChoice es ws ↔ ws = if es.isEmpty then [.emptyOneOf] else [] := by
  cases es with
  | nil =>
    constructor
    · intro h; cases h with
      | empty => rfl
      | some h => exact absurd rfl h
    · rintro rfl; exact .empty
  | cons e es =>
    constructor
    · intro h; cases h; rfl
    · rintro rfl; exact .some (by simp)

/-- A `One of`. -/
theorem oneOf_spec {w : World} {n : Node} {types : Context} {o : Out (List Element)} :
    ReadOneOf w n types o ↔ ∃ sig blocks line rest s sw es types' ws vs, Spec.Payload.Parts n sig blocks ∧ Signed oneOfTraits sig line rest s sw ∧
      Choices w [] types blocks es types' ws ∧ EmptyChoice es vs ∧
      o = ⟨es, types', sw ++ ws ++ vs⟩ := by
  rw [readOneOf_iff, (meaning_layer w n).oneOf]
  simp only [layer]
  rw [item_iff]
  have hsg : ∀ {sig : Node} {c : Bool} {o : Out (List Element)}, signed oneOfSign sig ⟨[], types, []⟩ = .ok (c, o) ↔
      c = true ∧ ∃ line rest s sw, Signed oneOfTraits sig line rest s sw ∧ o = ⟨[], types, sw⟩ := by
    intro sig c o
    unfold signed oneOfSign
    cases hr : readSignature oneOfTraits sig with
    | error e =>
      simp only [reduceCtorEq, false_iff, not_and, not_exists]
      rintro _ line rest s sw hs _
      rw [(signed_iff (by decide)).mpr ⟨line, rest, s, hs, rfl⟩] at hr
      cases hr
    | ok q =>
      obtain ⟨s', v⟩ := q
      simp only [Except.ok.injEq, Prod.mk.injEq]
      constructor
      · rintro ⟨rfl, rfl⟩
        obtain ⟨line, rest, s, hs, rfl⟩ := (signed_iff (by decide)).mp hr
        exact ⟨rfl, line, rest, s, _, hs, rfl⟩
      · rintro ⟨rfl, line, rest, s, sw, hs, rfl⟩
        rw [(signed_iff (by decide)).mpr ⟨line, rest, s, hs, rfl⟩] at hr
        cases hr
        exact ⟨rfl, rfl⟩
  constructor
  · rintro ⟨sig, blocks, hp, h | ⟨o₁, r, o₂, h1, h2, rfl⟩⟩
    · cases (hsg.mp h).1
    · obtain ⟨_, line, rest, s, sw, hs, rfl⟩ := hsg.mp h1
      rw [walk_frame (oneOfStep_frame (meaning w))] at h2
      cases hw : walk (oneOfStep (meaning w)) blocks ⟨[], types, []⟩ with
      | error e => rw [hw] at h2; cases h2
      | ok q =>
        obtain ⟨r', o₃⟩ := q
        rw [hw] at h2; cases h2
        obtain ⟨es, types', ws, hb, rfl⟩ := choices_iff.mp ⟨_, hw⟩
        exact ⟨sig, blocks, line, rest, s, sw, es, types', ws, _, hp, hs, hb, emptyChoice_iff.mpr rfl, rfl⟩
  · rintro ⟨sig, blocks, line, rest, s, sw, es, types', ws, vs, hp, hs, hb, he, rfl⟩
    rw [emptyChoice_iff] at he; subst he
    obtain ⟨r, hr⟩ := choices_iff.mpr ⟨_, _, _, hb, rfl⟩
    refine ⟨sig, blocks, hp, .inr ⟨_, r, ⟨es, types', sw ++ ws⟩, hsg.mpr ⟨rfl, line, rest, s, sw, hs, rfl⟩, ?_, rfl⟩⟩
    rw [walk_frame (oneOfStep_frame (meaning w)), hr]; rfl

/-! ## `Include` -/

theorem stray_iff {ns : List Node} {a : TypeDef} {types : Context} {r : List Node} {o : Out TypeDef} :
    walk mixinStep ns ⟨a, types, []⟩ = .ok (r, o) ↔ r = [] ∧ ∃ ws, Stray ns ws ∧ o = ⟨a, types, ws⟩ := by
  induction ns generalizing o r with
  | nil =>
    simp only [walk, Except.ok.injEq, Prod.mk.injEq]
    constructor
    · rintro ⟨rfl, rfl⟩; exact ⟨rfl, [], .nil, rfl⟩
    · rintro ⟨rfl, ws, h, rfl⟩; cases h; exact ⟨rfl, rfl⟩
  | cons n ns ih =>
    have hs : ∀ x : Warning, walk mixinStep ns ⟨a, types, [x]⟩ = .ok (r, o) ↔ r = [] ∧ ∃ ws, Stray ns ws ∧ o = ⟨a, types, x :: ws⟩ := by
      intro x
      rw [walk_frame mixinStep_frame]
      cases hw : walk mixinStep ns ⟨a, types, []⟩ with
      | error e =>
        simp only [afterW, reduceCtorEq, false_iff, not_and, not_exists]
        intro _ ws hst _
        have := (ih (r := []) (o := ⟨a, types, ws⟩)).mpr ⟨rfl, ws, hst, rfl⟩
        rw [hw] at this; cases this
      | ok q =>
        obtain ⟨r', o'⟩ := q
        obtain ⟨rfl, ws, hst, rfl⟩ := ih.mp hw
        simp only [afterW, after, Except.ok.injEq, Prod.mk.injEq]
        constructor
        · rintro ⟨rfl, rfl⟩; exact ⟨rfl, ws, hst, rfl⟩
        · rintro ⟨rfl, ws', hst', rfl⟩
          have := (ih (r := []) (o := ⟨a, types, ws'⟩)).mpr ⟨rfl, ws', hst', rfl⟩
          rw [hw] at this; cases this
          exact ⟨rfl, rfl⟩
    rw [walk]
    simp only [mixinStep, Out.warn, List.nil_append]
    by_cases hk : n.kind = .header
    · rw [if_pos hk, hs]
      constructor
      · rintro ⟨rfl, ws, h, rfl⟩; exact ⟨rfl, _, .header hk h, rfl⟩
      · rintro ⟨rfl, ws, h, rfl⟩
        cases h with
        | header _ h => exact ⟨rfl, _, h, rfl⟩
        | other h _ => exact absurd hk h
    · rw [if_neg hk, hs]
      constructor
      · rintro ⟨rfl, ws, h, rfl⟩; exact ⟨rfl, _, .other hk h, rfl⟩
      · rintro ⟨rfl, ws, h, rfl⟩
        cases h with
        | header h _ => exact absurd h hk
        | other _ h => exact ⟨rfl, _, h, rfl⟩

theorem identifier_bare {t : Traits} {line : Bytes} {sig : Signature} (h : Signature.parseSignature t line = .ok sig) : Bare sig.identifier := by
  unfold Signature.parseSignature at h
  simp only at h
  have key : ∀ (p : Bytes × Bytes) (r : Except Signature.Fault (List Bytes × Bytes)) (v : Bytes) (vs : List Bytes) (f : Bytes → Bytes), Bare p.1 →
      (r.bind fun r => (.ok { identifier := p.1, value := v, values := vs, attributes := r.1, content := f r.2 } : Except Signature.Fault Signature))
        = .ok sig → Bare sig.identifier := by
    intro p r v vs f hp h
    cases r with
    | error e => cases h
    | ok q => cases h; exact hp
  refine key _ _ _ _ (fun x => if t.content && !x.isEmpty && (x.take t.contentDelimiter.length == t.contentDelimiter)
    then trim (x.drop t.contentDelimiter.length) else []) ?_ h
  split
  · exact bare_trim _
  · exact ⟨by simp, by simp⟩

theorem include_word {w : Bytes} (h : Spec.Recognition.Word 'I' 'i' "nclude" w) : (0 ∉ w) ∧ w ≠ [] ∧ ∀ c, w.head? = some c → ¬ (c = 32 ∨ c = 9) := by
  rcases h with rfl | rfl <;> exact ⟨by decide, by decide, by intro c hc; simp at hc; subst hc; decide⟩

/-- A text without NUL before the first NUL of another. -/
theorem cstr_prefix {t m : Bytes} (h : 0 ∉ m) : (∃ r, Regex.cstr t = m ++ r) ↔ ∃ r, t = m ++ r := by
  obtain ⟨h1, h2⟩ := (Verif.Recognition.cstr_iff (t := t)).mp rfl
  constructor
  · rintro ⟨r, hr⟩
    rcases h2 with h2 | ⟨q, h2⟩
    · exact ⟨r, h2.trans hr⟩
    · exact ⟨r ++ 0 :: q, by rw [h2, hr, List.append_assoc]⟩
  · rintro ⟨r, rfl⟩
    refine ⟨Regex.cstr r, ?_⟩
    unfold Regex.cstr
    rw [List.takeWhile_append_of_pos]
    intro c hc
    simp only [decide_eq_true_eq]
    rintro rfl
    exact h hc

theorem included_final {sig : Signature} {o : Out TypeDef} {atts : List Bytes} (hb : Bare sig.identifier)
    (h : Included sig.identifier sig.attributes atts) : mixinFinal sig o =
      ⟨(Mson.parseTypeDefinition o.types atts).1,
        if (Mson.parseTypeDefinition o.types atts).1.spec.name.base = none ∧ (Mson.parseTypeDefinition o.types atts).1.spec.name.literal ≠ [] ∧
            (Mson.parseTypeDefinition o.types atts).1.spec.name.isVariable = false then
          (Mson.parseTypeDefinition o.types atts).2.1.refer (Mson.parseTypeDefinition o.types atts).1.spec.name.literal true
        else (Mson.parseTypeDefinition o.types atts).2.1,
        o.warnings ++ (Mson.parseTypeDefinition o.types atts).2.2.map .type ++
          if (Mson.parseTypeDefinition o.types atts).1.base = .primitive ∨ (Mson.parseTypeDefinition o.types atts).1.base = .undefined
          then [.primitiveMixin] else []⟩ := by
  have lead : ∀ {a w b r : Bytes}, sig.identifier = a ++ w ++ b ++ r → Spec.Recognition.Blanks a → a = [] := by
    intro a w b r he ha
    cases a with
    | nil => rfl
    | cons c a =>
      refine absurd ?_ (hb.1 c (by rw [he]; rfl))
      rcases ha c (by simp) with rfl | rfl <;> simp [White]
  have white : ∀ {b : Bytes}, Spec.Recognition.Blanks b → (0 : UInt8) ∉ b := by
    intro b hb h0
    rcases hb 0 h0 with h | h <;> exact absurd h (by decide)
  have key : (match Regex.regexCapture sig.identifier mixinRegex 2 with
      | some groups => if (groups.getD 1 []).isEmpty then sig.attributes
          else sig.identifier.drop (groups.getD 1 []).length :: sig.attributes
      | none => sig.attributes) = atts := by
    cases h with
    | none hn =>
      rw [Regex.regexCapture_prefix_none 2 Verif.Recognition.c_mixin]
      rintro ⟨m, rest, h1, h2⟩
      obtain ⟨a, w, b, rfl, ha, hw, hg⟩ := Verif.Recognition.L_mixin.mp h2
      have h0 : (0 : UInt8) ∉ a ++ w ++ b := by simp [white ha, white hg.2, (include_word hw).1]
      obtain ⟨r, hr⟩ := (cstr_prefix h0).mp ⟨rest, h1⟩
      have := lead hr ha
      subst this
      exact hn w b r (by simpa using hr) hw hg
    | @name w b r he hw hg hr =>
      have hm0 : (0 : UInt8) ∉ w ++ b := by simp [white hg.2, (include_word hw).1]
      have hl : Regex.Lang Verif.Recognition.xMixin (w ++ b) := Verif.Recognition.L_mixin.mpr ⟨[], w, b, rfl, by simp [Spec.Recognition.Blanks], hw, hg⟩
      obtain ⟨r', hr'⟩ := (cstr_prefix hm0).mpr ⟨r, he⟩
      obtain ⟨g, m, rest, h1, h2, h3, h4, h5⟩ :=
        Regex.regexCapture_prefix 2 Verif.Recognition.c_mixin (by decide) Verif.Recognition.n_mixin ⟨_, r', hr', hl⟩
      have h51 := (h5 1 (by omega)).trans (if_neg (by omega))
      -- the longest match
      have hm : m = w ++ b ∧ ((Regex.caps Verif.Recognition.xMixin m).lookup 1).getD [] = m := by
        obtain ⟨x, y, rfl, hx, hy, hc, _⟩ := Regex.caps_seq (a := Verif.Recognition.rBlanks) (b := .group 1 (Verif.Recognition.kw 'I' 'i' "nclude" Verif.Recognition.rGap)) h3
        have hc' : Regex.caps Verif.Recognition.xMixin (x ++ y) = _ := hc
        rw [Regex.lang_group] at hy
        obtain ⟨w', b', rfl, hw', hb', _⟩ := Verif.Recognition.k_kw hy
        have hx' := Verif.Recognition.l_blanks.mp hx
        have hb'' := Verif.Recognition.l_gap.mp hb'
        have hn0 : (0 : UInt8) ∉ x ++ (w' ++ b') := by simp [white hx', white hb''.2, (include_word hw').1]
        obtain ⟨r₂, hr₂⟩ := (cstr_prefix hn0).mp ⟨rest, h2⟩
        have := lead (a := x) (w := w') (b := b') (r := r₂) (by simpa using hr₂) hx'
        subst this
        rw [hc', Verif.Recognition.k_blanks, Verif.Recognition.k_group]
        refine ⟨?_, by simp⟩
        have hlen := h4 _ r' hr' hl
        simp only [List.nil_append, List.length_append] at hlen ⊢
        -- both words are equally long
        have hww : w'.length = w.length := by
          rcases hw with rfl | rfl <;> rcases hw' with rfl | rfl <;> rfl
        rw [he] at hr₂
        simp only [List.nil_append, List.append_assoc] at hr₂
        obtain ⟨hwe, hrest⟩ := List.append_inj hr₂ hww.symm
        subst hwe
        have hbl : b.length ≤ b'.length := by omega
        congr 1
        obtain ⟨z, hz⟩ : ∃ z, b' = b ++ z := by
          have := List.append_eq_append_iff.mp hrest
          rcases this with ⟨z, h1, _⟩ | ⟨z, h1, _⟩
          · exact ⟨z, h1⟩
          · have hz : z = [] := by
              have := congrArg List.length h1
              simp only [List.length_append] at this
              exact List.eq_nil_of_length_eq_zero (by omega)
            exact ⟨[], by rw [h1, hz]; simp⟩
        subst hz
        cases z with
        | nil => simp
        | cons c z =>
          simp only [List.append_assoc, List.append_cancel_left_eq, List.cons_append] at hrest
          rw [hrest] at hr
          exact absurd (hb''.2 c (by simp)) (hr c rfl)
      rw [h1]
      simp only
      rw [h51, hm.2, hm.1, he]
      have hne : (w ++ b).isEmpty = false := by
        cases w with
        | nil => exact absurd rfl (include_word hw).2.1
        | cons _ _ => rfl
      simp [hne]
  unfold mixinFinal
  simp only
  subst key
  cases Regex.regexCapture sig.identifier mixinRegex 2 <;> rfl

theorem included_total (id : Bytes) (atts : List Bytes) : ∃ r, Included id atts r := by
  by_cases h : ∃ w b r, id = w ++ b ++ r ∧ Spec.Recognition.Word 'I' 'i' "nclude" w ∧ Spec.Recognition.Gap b
  · obtain ⟨w, b, r, he, hw, hg⟩ := h
    let p : UInt8 → Bool := fun c => c = 32 ∨ c = 9
    refine ⟨_, .name (w := w) (b := b ++ r.takeWhile p) (r := r.dropWhile p) ?_ hw ⟨?_, ?_⟩ ?_⟩
    · rw [he]; simp
    · intro h; exact hg.1 (List.append_eq_nil_iff.mp h).1
    · intro c hc
      rcases List.mem_append.mp hc with hc | hc
      · exact hg.2 c hc
      · have := mem_takeWhile_imp hc; simpa [p] using this
    · intro c hc
      have := head_dropWhile hc
      simp [p] at this
      rintro (h | h)
      · exact this.1 h
      · exact this.2 h
  · exact ⟨_, .none fun w b r he hw hg => h ⟨w, b, r, he, hw, hg⟩⟩

theorem notIncluded_iff {t : TypeDef} {ws : List Warning} : NotIncluded t ws ↔ ws = if t.base = .primitive ∨ t.base = .undefined then [.primitiveMixin] else [] := by
  constructor
  · intro h
    cases h with
    | yes h => rw [if_pos h]
    | no h1 h2 => rw [if_neg (by rintro (h | h); exact h1 h; exact h2 h)]
  · rintro rfl
    by_cases h : t.base = .primitive ∨ t.base = .undefined
    · rw [if_pos h]; exact .yes h
    · rw [if_neg h]; exact .no (fun h' => h (.inl h')) (fun h' => h (.inr h'))

theorem notes_iff {types types' : Context} {t : TypeDef} : Notes types t types' ↔ types' =
    if t.spec.name.base = none ∧ t.spec.name.literal ≠ [] ∧ t.spec.name.isVariable = false then types.refer t.spec.name.literal true else types := by
  constructor
  · intro h
    cases h with
    | named h1 h2 h3 => rw [if_pos ⟨h1, h2, h3⟩]
    | other h => rw [if_neg h]
  · rintro rfl
    by_cases h : t.spec.name.base = none ∧ t.spec.name.literal ≠ [] ∧ t.spec.name.isVariable = false
    · rw [if_pos h]; exact .named h.1 h.2.1 h.2.2
    · rw [if_neg h]; exact .other h

/-- An `Include`. -/
theorem include_spec {w : World} {n : Node} {types : Context} {o : Out TypeDef} :
    ReadInclude w n types o ↔ ∃ sig blocks line rest s sw atts t types' vs types'' ws xs, Spec.Payload.Parts n sig blocks ∧
      Signed typeTraits sig line rest s sw ∧ Included s.identifier s.attributes atts ∧ Mson.parseTypeDefinition types atts = (t, types', vs) ∧
      Notes types' t types'' ∧ NotIncluded t ws ∧ Stray blocks xs ∧
      o = ⟨t, types'', sw ++ vs.map .type ++ ws ++ xs⟩ := by
  rw [readInclude_iff, (meaning_layer w n).mixin]
  simp only [layer]
  rw [item_iff]
  have hsg : ∀ {sig : Node} {c : Bool} {o : Out TypeDef}, signed mixinSign sig ⟨{}, types, []⟩ = .ok (c, o) ↔
      c = true ∧ ∃ line rest s sw atts t types' vs types'' ws, Signed typeTraits sig line rest s sw ∧ Included s.identifier s.attributes atts ∧
        Mson.parseTypeDefinition types atts = (t, types', vs) ∧ Notes types' t types'' ∧ NotIncluded t ws ∧
        o = ⟨t, types'', sw ++ vs.map .type ++ ws⟩ := by
    intro sig c o
    unfold signed mixinSign
    cases hr : readSignature typeTraits sig with
    | error e =>
      simp only [reduceCtorEq, false_iff, not_and, not_exists]
      rintro _ line rest s sw _ _ _ _ _ _ hs
      rw [(signed_iff (by decide)).mpr ⟨line, rest, s, hs, rfl⟩] at hr
      cases hr
    | ok q =>
      obtain ⟨s', v⟩ := q
      simp only [Except.ok.injEq, Prod.mk.injEq]
      constructor
      · rintro ⟨rfl, rfl⟩
        obtain ⟨line, rest, s, hs, rfl⟩ := (signed_iff (by decide)).mp hr
        obtain ⟨atts, ha⟩ := included_total s.identifier s.attributes
        have hbare := identifier_bare ((Verif.SignatureLine.signature_iff (by decide)).mp hs.choose_spec.2.2.2).1
        rw [included_final (sig := { s with remainingContent := rest }) hbare ha]
        exact ⟨rfl, line, rest, s, _, atts, _, _, _, _, _, hs, ha, rfl, notes_iff.mpr rfl, notIncluded_iff.mpr rfl, rfl⟩
      · rintro ⟨rfl, line, rest, s, sw, atts, t, types', vs, types'', ws, hs, ha, ht, hn, hi, rfl⟩
        rw [(signed_iff (by decide)).mpr ⟨line, rest, s, hs, rfl⟩] at hr
        cases hr
        have hbare := identifier_bare ((Verif.SignatureLine.signature_iff (by decide)).mp hs.choose_spec.2.2.2).1
        rw [included_final (sig := { s with remainingContent := rest }) hbare ha]
        rw [notes_iff] at hn
        rw [notIncluded_iff] at hi
        subst hn hi
        simp only [Out.warn, ht]
        exact ⟨trivial, rfl⟩
  constructor
  · rintro ⟨sig, blocks, hp, h | ⟨o₁, r, o₂, h1, h2, rfl⟩⟩
    · cases (hsg.mp h).1
    · obtain ⟨_, line, rest, s, sw, atts, t, types', vs, types'', ws, hs, ha, ht, hn, hi, rfl⟩ := hsg.mp h1
      rw [walk_frame mixinStep_frame] at h2
      cases hw : walk mixinStep blocks ⟨t, types'', []⟩ with
      | error e => rw [hw] at h2; cases h2
      | ok q =>
        obtain ⟨r', o₃⟩ := q
        rw [hw] at h2; cases h2
        obtain ⟨_, xs, hb, rfl⟩ := stray_iff.mp hw
        exact ⟨sig, blocks, line, rest, s, sw, atts, t, types', vs, types'', ws, xs, hp, hs, ha, ht, hn, hi, hb, rfl⟩
  · rintro ⟨sig, blocks, line, rest, s, sw, atts, t, types', vs, types'', ws, xs, hp, hs, ha, ht, hn, hi, hb, rfl⟩
    refine ⟨sig, blocks, hp, .inr ⟨_, [], ⟨t, types'', sw ++ vs.map .type ++ ws ++ xs⟩,
      hsg.mpr ⟨rfl, line, rest, s, sw, atts, t, types', vs, types'', ws, hs, ha, ht, hn, hi, rfl⟩, ?_, rfl⟩⟩
    rw [walk_frame mixinStep_frame, stray_iff.mpr ⟨rfl, xs, hb, rfl⟩]
    rfl

end Verif.MsonParser
