import Verif.Proof.MsonLines
import Verif.Props.C82

/-!
# C83: what a member of a data structure is made of

A property, value or `Attributes` item is what its first line says, with what the blocks under it add: text is its description,
list items are its members, in order, in sections.
-/

namespace Verif.Props
open Verif Verif.Text Verif.Section Verif.MsonParser Verif.Spec Verif.Spec.MsonParser
open Verif.Mson (Base Context)
open Verif.DataStructure (Klass Element NamedType)
open Verif.Spec.Payload (Parts)

theorem valueLens_lawful : valueLens.Lawful := ⟨fun _ => rfl, fun _ _ => rfl, fun _ _ _ => rfl⟩
theorem propertyLens_lawful : propertyLens.Lawful := ⟨fun _ => rfl, fun _ _ => rfl, fun _ _ _ => rfl⟩
theorem namedLens_lawful : namedLens.Lawful := ⟨fun _ => rfl, fun _ _ => rfl, fun _ _ _ => rfl⟩

/-- A value. -/
theorem C83_value (w : World) (n : Node) (types : Context) (o : Out ValueNode) : ReadValue w n types o ↔
    ∃ sig blocks v st ws rest b, Parts n sig blocks ∧ ValueLine w sig types v ∧
      Content w ⟨v.node.sections, v.node.definition.type.base, v.types⟩ blocks st ws rest ∧ Finally st.base b ∧
      o = ⟨⟨v.node.description, { v.node.definition with type := { v.node.definition.type with base := b } }, st.sections⟩,
        st.types, v.warnings ++ ws⟩ := by
  rw [readValue_iff, (meaning_layer w n).value]
  simp only [layer]
  rw [Lens.read_iff valueLens_lawful valueFinalize_frame (by
    intro n o o' h
    unfold valueSignature at h
    split at h
    · cases h
    · cases h; exact under_cases)]
  constructor
  · rintro ⟨sig, blocks, v, st, ws, rest, h1, h2, h3, rfl⟩
    exact ⟨sig, blocks, v, st, ws, rest, _, h1, valueLine_iff.mp h2, h3, finally_iff.mpr rfl, rfl⟩
  · rintro ⟨sig, blocks, v, st, ws, rest, b, h1, h2, h3, h4, rfl⟩
    rw [finally_iff] at h4; subst h4
    exact ⟨sig, blocks, v, st, ws, rest, h1, valueLine_iff.mpr h2, h3, rfl⟩

/-- A property. -/
theorem C83_property (w : World) (n : Node) (types : Context) (o : Out PropertyNode) : ReadProperty w n types o ↔
    ∃ sig blocks v st ws rest b, Parts n sig blocks ∧ PropertyLine w sig types v ∧
      Content w ⟨v.node.sections, v.node.definition.type.base, v.types⟩ blocks st ws rest ∧ Finally st.base b ∧
      o = ⟨⟨⟨v.node.description, { v.node.definition with type := { v.node.definition.type with base := b } }, st.sections⟩, v.node.name⟩,
        st.types, v.warnings ++ ws⟩ := by
  rw [readProperty_iff, (meaning_layer w n).property]
  simp only [layer]
  rw [Lens.read_iff propertyLens_lawful propertyFinalize_frame (by
    intro n o o' h
    unfold propertySignature at h
    split at h
    · cases h
    · simp only at h
      split at h
      · cases h
      · cases h
      · cases h; exact under_cases)]
  constructor
  · rintro ⟨sig, blocks, v, st, ws, rest, h1, h2, h3, rfl⟩
    exact ⟨sig, blocks, v, st, ws, rest, _, h1, propertyLine_iff.mp h2, h3, finally_iff.mpr rfl, rfl⟩
  · rintro ⟨sig, blocks, v, st, ws, rest, b, h1, h2, h3, h4, rfl⟩
    rw [finally_iff] at h4; subst h4
    exact ⟨sig, blocks, v, st, ws, rest, h1, propertyLine_iff.mpr h2, h3, rfl⟩

/-- `Attributes`. -/
theorem C83_attributes (w : World) (n : Node) (types : Context) (o : Out NamedType) : ReadAttributes w n types o ↔
    ∃ sig blocks v st ws rest, Parts n sig blocks ∧ AttributesLine sig types v ∧
      Content w ⟨v.node.sections, v.node.type.base, v.types⟩ blocks st ws rest ∧
      o = ⟨{ v.node with sections := st.sections, type := { v.node.type with base := st.base } }, st.types, v.warnings ++ ws⟩ := by
  unfold ReadAttributes
  rw [readAs_iff (attributes_at w)]
  unfold attributesMeaning
  rw [Lens.read_iff namedLens_lawful (fun _ _ _ => by simp [after]) (by
    intro n o o' h
    unfold attributesSignature at h
    split at h
    · cases h
    · cases h; exact under_cases)]
  constructor
  · rintro ⟨sig, blocks, v, st, ws, rest, h1, h2, h3, rfl⟩
    exact ⟨sig, blocks, v, st, ws, rest, h1, attributesLine_iff.mp h2, h3, rfl⟩
  · rintro ⟨sig, blocks, v, st, ws, rest, h1, h2, h3, rfl⟩
    exact ⟨sig, blocks, v, st, ws, rest, h1, attributesLine_iff.mpr h2, h3, rfl⟩

/-! ## Plain lists -/

/-- The section of members. -/
def membersOf (es : List Element) : TypeSection := sectionOf .members [] [] es

theorem open_members (es : List Element) : Open [membersOf es] := by intro s hs; cases hs; simp [membersOf, sectionOf, DataStructure.Section.klass]

theorem properties_blocks {w : World} {types types' : Context} {ns : List Node} {es : List Element} {ws : List Warning}
    (h : Properties w types ns es types' ws) {b : Base} (hb : ObjectBase b) : ∀ fs,
    Blocks w ⟨[membersOf fs], b, types⟩ ns ⟨[membersOf (fs ++ es)], b, types'⟩ ws [] := by
  induction h with
  | nil => intro fs; rw [List.append_nil]; exact .done
  | cons h1 h2 h3 _ ih =>
    intro fs
    refine .next (.inl (open_members fs)) (.known (object_not hb).2.2) (.property h1 hb h2 h3) (.more (ss := []) (d := []) (v := [])) ?_
    have := ih (fs ++ [PropertyNode.made (Out.node ‹_›)])
    rw [List.append_assoc] at this
    exact this

theorem values_blocks {w : World} {types types' : Context} {ns : List Node} {es : List Element} {ws : List Warning}
    (h : Values w types ns es types' ws) {b : Base} (hb : ListBase b) : ∀ fs,
    Blocks w ⟨[membersOf fs], b, types⟩ ns ⟨[membersOf (fs ++ es)], b, types'⟩ ws [] := by
  induction h with
  | nil => intro fs; rw [List.append_nil]; exact .done
  | cons h1 h2 h3 _ ih =>
    intro fs
    refine .next (.inl (open_members fs)) (.known (list_not hb).2.2) (.value h1 hb h2 h3) (.more (ss := []) (d := []) (v := [])) ?_
    have := ih (fs ++ [.value (ValueNode.made (Out.node ‹_›))])
    rw [List.append_assoc] at this
    exact this

/-- Items of an object (or of what has no type) are its properties: all of them, in their order, with all their warnings. -/
theorem C83_object_items (w : World) (n sig : Node) (blocks : List Node) (types types' : Context) (v : Out PropertyNode)
    (es : List Element) (ws : List Warning) (hp : Parts n sig blocks) (hv : PropertyLine w sig types v) (hs : v.node.sections = [])
    (hb : ObjectBase v.node.definition.type.base ∨ v.node.definition.type.base = .undefined) (hne : blocks ≠ [])
    (hm : Properties w v.types blocks es types' ws) :
    ∃ o, ReadProperty w n types o ∧ o.node.name = v.node.name ∧ o.node.definition.values = v.node.definition.values ∧
      ObjectBase o.node.definition.type.base ∧ o.node.sections = [membersOf es] ∧ o.types = types' ∧ o.warnings = v.warnings ++ ws := by
  obtain ⟨b, hb'⟩ : ∃ b, ∀ n ns, blocks = n :: ns → ObjectBase b ∧ (IsPlain n → Settles v.node.definition.type.base n b) := by
    rcases hb with hb | hb
    · exact ⟨_, fun n ns _ => ⟨hb, fun _ => .known (object_not hb).2.2⟩⟩
    · exact ⟨.implicitObject, fun n ns _ => ⟨.inr rfl, fun hpl => .object hb (.inl hpl)⟩⟩
  cases hm with
  | nil => exact absurd rfl hne
  | @cons _ _ _ ws₁ _ es₁ _ vs h1 h2 h3 hr =>
    generalize hes : PropertyNode.made _ :: es₁ = es
    generalize hws : _ ++ ws₁ ++ vs = ws
    obtain ⟨hob, hset⟩ := hb' _ _ rfl
    refine ⟨_, (C83_property w n types _).mpr ⟨sig, _, v, ⟨[membersOf es], b, types'⟩, ws, [], b, hp, hv, ?_, .given (object_not hob).2.2, rfl⟩,
      rfl, rfl, hob, rfl, rfl, rfl⟩
    rw [hs, ← hws]
    refine .blocks (.inr fun m hm => ?_) (.next (.inl (by simp [Open])) (hset h1) (.property h1 hob h2 h3) (.first (by simp)) ?_)
    · cases hm; exact (plain_not h1).2.2.2.1
    · subst hes; exact properties_blocks hr hob [_]

/-- Items of an array are its values. -/
theorem C83_array_items (w : World) (n sig : Node) (blocks : List Node) (types types' : Context) (v : Out PropertyNode)
    (es : List Element) (ws : List Warning) (hp : Parts n sig blocks) (hv : PropertyLine w sig types v) (hs : v.node.sections = [])
    (hb : ListBase v.node.definition.type.base) (hne : blocks ≠ []) (hm : Values w v.types blocks es types' ws) :
    ∃ o, ReadProperty w n types o ∧ o.node.name = v.node.name ∧ o.node.definition = v.node.definition ∧
      o.node.sections = [membersOf es] ∧ o.types = types' ∧ o.warnings = v.warnings ++ ws := by
  cases hm with
  | nil => exact absurd rfl hne
  | @cons _ _ _ ws₁ _ es₁ _ vs h1 h2 h3 hr =>
    generalize hes : Element.value _ :: es₁ = es
    generalize hws : _ ++ ws₁ ++ vs = ws
    refine ⟨_, (C83_property w n types _).mpr ⟨sig, _, v, ⟨[membersOf es], _, types'⟩, ws, [], _, hp, hv, ?_, .given (list_not hb).2.2, rfl⟩,
      rfl, rfl, rfl, rfl, rfl⟩
    rw [hs, ← hws]
    refine .blocks (.inr fun m hm => ?_) (.next (.inl (by simp [Open])) (.known (list_not hb).2.2) (.value h1 hb h2 h3) (.first (by simp)) ?_)
    · cases hm; exact (plain_not h1).2.2.2.1
    · subst hes; exact values_blocks hr hb [_]

theorem texts_blocks {w : World} {d e : Bytes} {ns : List Node} (h : Texts w d ns e) (b : Base) (types : Context) :
    Blocks w ⟨[description d], b, types⟩ ns ⟨[description e], b, types⟩ [] [] := by
  induction h with
  | nil => exact .done
  | cons h1 h2 h3 _ ih => exact .describe h1.1 (text_not_part h1) h2 h3 ih

/-- Text under the first line is the description: all of it, in order. -/
theorem C83_description (w : World) (n sig : Node) (blocks : List Node) (types : Context) (v : Out PropertyNode) (e : Bytes)
    (hp : Parts n sig blocks) (hv : PropertyLine w sig types v) (hne : blocks ≠ [])
    (ht : v.node.sections = [] ∧ Texts w [] blocks e ∨ ∃ d, v.node.sections = [description d] ∧ Texts w d blocks e) :
    ∃ o, ReadProperty w n types o ∧ o.node.name = v.node.name ∧ o.node.definition.values = v.node.definition.values ∧
      o.node.sections = [description e] ∧ o.types = v.types ∧ o.warnings = v.warnings := by
  obtain ⟨b, hb⟩ : ∃ b, Finally v.node.definition.type.base b := ⟨_, finally_iff.mpr rfl⟩
  rcases ht with ⟨hs, ht⟩ | ⟨d, hs, ht⟩
  · cases ht with
    | nil => exact absurd rfl hne
    | cons h1 h2 h3 hr =>
      refine ⟨_, (C83_property w n types _).mpr ⟨sig, _, v, ⟨[description e], _, _⟩, [], [], b, hp, hv, ?_, hb, rfl⟩,
        rfl, rfl, rfl, rfl, List.append_nil _⟩
      rw [hs]
      cases h3 with
      | first => exact .text h1 h2 (texts_blocks hr _ _)
      | next h => exact absurd rfl h
  · refine ⟨_, (C83_property w n types _).mpr ⟨sig, _, v, ⟨[description e], _, _⟩, [], [], b, hp, hv, ?_, hb, rfl⟩,
      rfl, rfl, rfl, rfl, List.append_nil _⟩
    rw [hs]
    exact .blocks (.inl (by simp)) (texts_blocks ht _ _)

/-! ## Cases -/

theorem plain_of {n : Node} (h : n.kind = .listItem) (hm : memberNested n = .mson) : IsPlain n := by
  cases role n with
  | header h' => rw [h] at h'; cases h'
  | text h' => exact absurd h h'.2
  | plain h' => exact h'
  | include_ h' => rw [member_include h'] at hm; cases hm
  | oneOf h' => rw [member_oneOf h'] at hm; cases hm
  | part h' => rw [member_part h'] at hm; exact absurd hm (part_ne h').2.1

theorem any_ok {α : Type} {r : Except Stop α} {p : α → Bool} (h : r.toOption.any p = true) : ∃ a, r = .ok a ∧ p a = true := by
  cases r with
  | error e => cases h
  | ok a => exact ⟨a, rfl, h⟩

/-- `a` with the members `b: 1` and `c`. -/
def objectItem : Node := mitem [mpara "a", mitem [mpara "b: 1"], mitem [mpara "c"]]

/-- The hypotheses of `C83_object_items` are met. -/
example : ∃ v es types' ws, Parts objectItem (mpara "a") [mitem [mpara "b: 1"], mitem [mpara "c"]] ∧
    PropertyLine msonWorld (mpara "a") noTypes v ∧ v.node.sections = [] ∧ v.node.definition.type.base = .undefined ∧
    Properties msonWorld v.types [mitem [mpara "b: 1"], mitem [mpara "c"]] es types' ws ∧ es.length = 2 := by
  have h : (propertySignature msonWorld (mpara "a") ⟨[], {}, noTypes, []⟩).toOption.any (fun v =>
      v.node.sections.isEmpty && v.node.definition.type.base = .undefined &&
      ((meaning msonWorld).property (mitem [mpara "b: 1"]) v.types).toOption.any fun o =>
        ((meaning msonWorld).property (mitem [mpara "c"]) o.types).toOption.any fun _ => true) = true := by decide +kernel
  obtain ⟨v, hv, h⟩ := any_ok h
  simp only [Bool.and_eq_true, List.isEmpty_iff, decide_eq_true_eq] at h
  obtain ⟨⟨h1, h2⟩, h3⟩ := h
  obtain ⟨o, ho, h4⟩ := any_ok h3
  obtain ⟨p, hp, _⟩ := any_ok h4
  refine ⟨v, _, _, _, ⟨rfl, .inl ⟨[], rfl, by simp, ⟨_, _, rfl, by decide⟩⟩⟩, propertyLine_iff.mp hv, h1, h2,
    .cons (plain_of rfl (by decide +kernel)) (readProperty_iff.mpr ho) (doubt_iff.mpr rfl)
      (.cons (plain_of rfl (by decide +kernel)) (readProperty_iff.mpr hp) (doubt_iff.mpr rfl) .nil), rfl⟩

/-- The hypotheses of `C83_array_items` are met. -/
example : ∃ v es types' ws, Parts (mitem [mpara "a (array)", mitem [mpara "1"]]) (mpara "a (array)") [mitem [mpara "1"]] ∧
    PropertyLine msonWorld (mpara "a (array)") noTypes v ∧ v.node.sections = [] ∧ ListBase v.node.definition.type.base ∧
    Values msonWorld v.types [mitem [mpara "1"]] es types' ws ∧ es.length = 1 := by
  have h : (propertySignature msonWorld (mpara "a (array)") ⟨[], {}, noTypes, []⟩).toOption.any (fun v =>
      v.node.sections.isEmpty && v.node.definition.type.base = .value &&
      ((meaning msonWorld).value (mitem [mpara "1"]) v.types).toOption.any fun _ => true) = true := by decide +kernel
  obtain ⟨v, hv, h⟩ := any_ok h
  simp only [Bool.and_eq_true, List.isEmpty_iff, decide_eq_true_eq] at h
  obtain ⟨⟨h1, h2⟩, h3⟩ := h
  obtain ⟨o, ho, _⟩ := any_ok h3
  refine ⟨v, _, _, _, ⟨rfl, .inl ⟨[], rfl, by simp, ⟨_, _, rfl, by decide⟩⟩⟩, propertyLine_iff.mp hv, h1, .inl h2,
    .cons (plain_of rfl (by decide +kernel)) (readValue_iff.mpr ho) (doubt_iff.mpr rfl) .nil, rfl⟩

/-- The hypotheses of `C83_description` are met. -/
example : ∃ v, Parts (mitem [mpara "a", mpara "x", mpara "x"]) (mpara "a") [mpara "x", mpara "x"] ∧
    PropertyLine msonWorld (mpara "a") noTypes v ∧ v.node.sections = [] ∧
    Texts msonWorld [] [mpara "x", mpara "x"] (str "x\n\nx") := by
  have h : (propertySignature msonWorld (mpara "a") ⟨[], {}, noTypes, []⟩).toOption.any (fun v =>
      v.node.sections.isEmpty) = true := by decide +kernel
  obtain ⟨v, hv, h⟩ := any_ok h
  have hs : Source msonWorld (mpara "x") (str "x") := source_iff.mpr (by decide +kernel)
  have ht : IsText (mpara "x") := ⟨by decide, by decide⟩
  have hf : Follows (str "x") (str "x") (str "x\n\nx") := follows_iff.mpr ⟨_, rfl, by decide +kernel⟩
  exact ⟨v, ⟨rfl, .inl ⟨[], rfl, by simp, ⟨_, _, rfl, by decide⟩⟩⟩, propertyLine_iff.mp hv, by simpa using h,
    .cons ht hs .first (.cons ht hs hf .nil)⟩

end Verif.Props
