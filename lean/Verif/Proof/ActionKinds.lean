import Verif.Spec.Action
import Verif.Proof.PayloadRead
import Verif.Proof.HeaderLoop
import Mathlib.Tactic.Tauto

/-! # Which blocks belong to an action, and what they are -/

namespace Verif.Action
open Verif Verif.Text Verif.Regex Verif.Section Verif.Recognition Verif.Spec Verif.Spec.Recognition Verif.Spec.Payload Verif.Spec.Action Verif.Props

/-! ## Headers -/

theorem first_header {n : Node} (h : n.kind = .header) : recognise.keyword n =
    Recognise.first [recognise.typeSectionType n, recognise.resourceType n, recognise.actionSectionType n, recognise.groupType n,
      recognise.dataStructuresType n] := by
  have l0 : ∀ t, Recognise.ofList n t = .undefined := by intro t; simp [Recognise.ofList, h]
  unfold Recognise.keyword
  simp only [Recognise.mixinType, Recognise.oneOfType, Recognise.headersType, Recognise.assetType, Recognise.attributesType,
    Recognise.payloadType, Recognise.valuesType, Recognise.parametersType, Recognise.relationType, l0, Recognise.first, ne_eq,
    not_true_eq_false, if_false]

theorem payload_values (n : Node) : recognise.payloadType n ∈
    [.undefined, .request, .requestBody, .response, .responseBody, .model, .modelBody] := by
  show Recognise.ofList n (payloadOf n) ∈ _
  unfold Recognise.ofList payloadOf payloadSection
  repeat' split
  all_goals simp

theorem typeSection_values' (n : Node) : recognise.typeSectionType n ∈ [.undefined, .msonSampleDefault, .msonValueMembers, .msonPropertyMembers] := by
  unfold Recognise.typeSectionType
  show (if _ then typeSectionOf n else _) ∈ _
  unfold typeSectionOf
  simp only
  repeat' split
  all_goals simp

theorem not_upper {n : Node} (h : n.kind ≠ .header) : actionUpper.contains (recognise.keyword n) = false := by
  have l0 : ∀ b t, Recognise.ofHeader n b t = .undefined := by intro b t; simp [Recognise.ofHeader, h]
  have hk : recognise.keyword n = .undefined ∨ recognise.keyword n ∈
      [recognise.typeSectionType n, recognise.mixinType n, recognise.oneOfType n, recognise.headersType n, recognise.assetType n,
    recognise.attributesType n, recognise.payloadType n, recognise.valuesType n, recognise.parametersType n, recognise.relationType n] := by
    have e : recognise.keyword n = Recognise.first [recognise.typeSectionType n, recognise.mixinType n, recognise.oneOfType n,
      recognise.headersType n, recognise.assetType n, recognise.attributesType n, recognise.payloadType n, recognise.valuesType n,
      recognise.parametersType n, recognise.relationType n] := by
      have e1 : recognise.resourceType n = .undefined := l0 _ _
      have e2 : recognise.actionSectionType n = .undefined := l0 _ _
      have e3 : recognise.groupType n = .undefined := l0 _ _
      have e4 : recognise.dataStructuresType n = .undefined := l0 _ _
      unfold Recognise.keyword
      rw [e1, e2, e3, e4]
      simp only [Recognise.first, ne_eq, not_true_eq_false, if_false]
    exact first_cases e.symm
  have lv : ∀ b t, Recognise.ofList n (Recognise.when b t) = t ∨ Recognise.ofList n (Recognise.when b t) = .undefined := fun b t => ofList_values
  have av : recognise.assetType n = .body ∨ recognise.assetType n = .schema ∨ recognise.assetType n = .undefined := by
    show Recognise.ofList n (assetOf n) = _ ∨ Recognise.ofList n (assetOf n) = _ ∨ Recognise.ofList n (assetOf n) = _
    unfold Recognise.ofList assetOf
    repeat' split
    all_goals simp
  have pv := payload_values n
  have tv := typeSection_values' n
  have key : recognise.keyword n ∉ actionUpper := by
    rcases hk with hk | hk
    · rw [hk]; decide
    · simp only [List.mem_cons, List.not_mem_nil, or_false] at hk
      rcases hk with hk | hk | hk | hk | hk | hk | hk | hk | hk | hk <;> rw [hk]
      · simp only [List.mem_cons, List.not_mem_nil, or_false] at tv
        rcases tv with h | h | h | h <;> rw [h] <;> decide
      · rcases lv (recognise.mixin n) .msonMixin with h | h <;> rw [Recognise.mixinType, h] <;> decide
      · rcases lv (recognise.oneOf n) .msonOneOf with h | h <;> rw [Recognise.oneOfType, h] <;> decide
      · rcases lv (recognise.headers n) .headers with h | h <;> rw [Recognise.headersType, h] <;> decide
      · rcases av with h | h | h <;> rw [h] <;> decide
      · rcases lv (recognise.attributes n) .attributes with h | h <;> rw [Recognise.attributesType, h] <;> decide
      · simp only [List.mem_cons, List.not_mem_nil, or_false] at pv
        rcases pv with h | h | h | h | h | h | h <;> rw [h] <;> decide
      · rcases lv (recognise.values n) .values with h | h <;> rw [Recognise.valuesType, h] <;> decide
      · rcases lv (recognise.parameters n) .parameters with h | h <;> rw [Recognise.parametersType, h] <;> decide
      · rcases lv (recognise.relation n) .relation with h | h <;> rw [Recognise.relationType, h] <;> decide
  simpa using key

theorem begins_iff (n : Node) : actionUpper.contains (recognise.keyword n) = true ↔ Begins n := by
  by_cases hh : n.kind = .header
  · rw [first_header hh]
    have t1 := typeSection_iff n
    have r1 := C74_resource n
    have r2 := C74_action n
    have r3 := C74_group n
    have r4 := C74_data n
    have tv := typeSection_values' n
    have no : ¬ ∃ s, ItemLine n s ∧ TypeSectionForm s := by
      rw [itemLine_iff, hh]; simp
    have v1 := ofHeader_values n (recognise.resource n.text) .resource
    have v2 := ofHeader_values n (recognise.action n.text || recognise.namedAction n.text) .action
    have v3 := ofHeader_values n (recognise.group n.text) .resourceGroup
    have v4 := ofHeader_values n (recognise.dataStructures n.text) .dataStructureGroup
    change recognise.resourceType n = _ ∨ recognise.resourceType n = _ at v1
    change recognise.actionSectionType n = _ ∨ recognise.actionSectionType n = _ at v2
    change recognise.groupType n = _ ∨ recognise.groupType n = _ at v3
    change recognise.dataStructuresType n = _ ∨ recognise.dataStructuresType n = _ at v4
    have sp : Begins n ↔ (recognise.resourceType n = .resource ∨ recognise.actionSectionType n = .action ∨
        recognise.groupType n = .resourceGroup ∨ recognise.dataStructuresType n = .dataStructureGroup) ∧
        recognise.typeSectionType n = .undefined := by
      unfold Begins
      rw [r1, r2, r3, r4]
      simp only [hh, true_and] at t1 ⊢
      rw [or_iff_left no] at t1
      rw [← t1, not_not]
      refine and_congr_left fun _ => ?_
      constructor
      · rintro (⟨s, h1, h2 | h2 | h2⟩ | h)
        · exact .inl ⟨s, h1, h2⟩
        · exact .inr (.inl ⟨s, h1, h2⟩)
        · obtain ⟨x, h2⟩ := h2; exact .inr (.inr (.inl ⟨s, x, h1, h2⟩))
        · exact .inr (.inr (.inr h))
      · rintro (⟨s, h1, h2⟩ | ⟨s, h1, h2⟩ | ⟨s, x, h1, h2⟩ | h)
        · exact .inl ⟨s, h1, .inl h2⟩
        · exact .inl ⟨s, h1, .inr (.inl h2)⟩
        · exact .inl ⟨s, h1, .inr (.inr ⟨x, h2⟩)⟩
        · exact .inr h
    rw [sp]
    generalize recognise.typeSectionType n = a at *
    generalize recognise.resourceType n = b at *
    generalize recognise.actionSectionType n = c at *
    generalize recognise.groupType n = d at *
    generalize recognise.dataStructuresType n = e at *
    clear t1 r1 r2 r3 r4 sp no
    simp only [List.mem_cons, List.not_mem_nil, or_false] at tv
    rcases tv with rfl | rfl | rfl | rfl <;> rcases v1 with rfl | rfl <;> rcases v2 with rfl | rfl <;> rcases v3 with rfl | rfl <;>
      rcases v4 with rfl | rfl <;> decide
  · rw [not_upper hh]
    simp [Begins, hh]

/-! ## Items -/

/-- The first line of the item has that form. -/
def Is (i : Item) (n : Node) : Prop := ∃ s, ItemLine n s ∧ i.Form s

theorem is_one {i j : Item} {n : Node} (h : Is i n) (h' : Is j n) : i = j := by
  unfold Is at h h'
  rw [itemLine_iff] at h h'
  by_contra hij
  exact not_form h.2 hij h'.2

theorem nested_eq (n : Node) : recognise.actionNested n =
    Recognise.first [recognise.relationType n, recognise.parametersType n, recognise.headersType n, recognise.attributesType n,
      recognise.payloadType n] := rfl

/-- What an item of an action is, by the words that begin it. -/
theorem nested_cases (n : Node) :
    (Is .relation n ∧ recognise.actionNested n = .relation) ∨ (Is .parameters n ∧ recognise.actionNested n = .parameters) ∨
    (Is .headers n ∧ recognise.actionNested n = .headers) ∨ (Is .attributes n ∧ recognise.actionNested n = .attributes) ∨
    (Is .request n ∧ HasParts n ∧ recognise.actionNested n = .request) ∨ (Is .request n ∧ ¬ HasParts n ∧ recognise.actionNested n = .requestBody) ∨
    (Is .response n ∧ HasParts n ∧ recognise.actionNested n = .response) ∨
    (Is .response n ∧ ¬ HasParts n ∧ recognise.actionNested n = .responseBody) ∨
    ((∀ i ∈ [Item.relation, .parameters, .headers, .attributes, .request, .response], ¬ Is i n) ∧
      ((∃ s, ItemLine n s ∧ ∃ name m, ModelLine s name m) ∧ (recognise.actionNested n = .model ∨ recognise.actionNested n = .modelBody) ∨
      (¬ ∃ s, ItemLine n s ∧ ∃ name m, ModelLine s name m) ∧ recognise.actionNested n = .undefined)) := by
  rw [nested_eq]
  obtain ⟨s1, s2, s3, s4, _⟩ := C77_sections n
  have v1 : recognise.headersType n = .headers ∨ recognise.headersType n = .undefined := ofList_values
  have v2 : recognise.parametersType n = .parameters ∨ recognise.parametersType n = .undefined := ofList_values
  have v3 : recognise.attributesType n = .attributes ∨ recognise.attributesType n = .undefined := ofList_values
  have v4 : recognise.relationType n = .relation ∨ recognise.relationType n = .undefined := ofList_values
  change _ ↔ Is .headers n at s1
  change _ ↔ Is .parameters n at s2
  change _ ↔ Is .attributes n at s3
  change _ ↔ Is .relation n at s4
  haveI := Classical.propDecidable (HasParts n)
  obtain ⟨p1, p2, p3, p4⟩ := C77_payload n (HasParts n) Iff.rfl
  change _ ↔ Is .request n at p1
  change _ ↔ Is .response n at p2
  rcases v4 with v4 | v4
  · exact .inl ⟨s4.mp v4, by rw [v4]; rfl⟩
  have n4 : ¬ Is .relation n := fun h => by rw [s4.mpr h] at v4; cases v4
  right
  rcases v2 with v2 | v2
  · exact .inl ⟨s2.mp v2, by rw [v4, v2]; rfl⟩
  have n2 : ¬ Is .parameters n := fun h => by rw [s2.mpr h] at v2; cases v2
  right
  rcases v1 with v1 | v1
  · exact .inl ⟨s1.mp v1, by rw [v4, v2, v1]; rfl⟩
  have n1 : ¬ Is .headers n := fun h => by rw [s1.mpr h] at v1; cases v1
  right
  rcases v3 with v3 | v3
  · exact .inl ⟨s3.mp v3, by rw [v4, v2, v1, v3]; rfl⟩
  have n3 : ¬ Is .attributes n := fun h => by rw [s3.mpr h] at v3; cases v3
  right
  rw [v4, v2, v1, v3]
  have e : Recognise.first [.undefined, .undefined, .undefined, .undefined, recognise.payloadType n] = recognise.payloadType n := by
    simp only [Recognise.first, ne_eq, not_true_eq_false, if_false]
    split
    · rfl
    · rename_i h; exact (not_not.mp h).symm
  rw [e]
  by_cases hr : Is .request n
  · have h := p1.mpr hr
    by_cases hp : HasParts n
    · rw [if_pos hp] at h; exact .inl ⟨hr, hp, h⟩
    · rw [if_neg hp] at h; exact .inr (.inl ⟨hr, hp, h⟩)
  · right; right
    by_cases hs : Is .response n
    · have h := p2.mpr hs
      by_cases hp : HasParts n
      · rw [if_pos hp] at h; exact .inl ⟨hs, hp, h⟩
      · rw [if_neg hp] at h; exact .inr (.inl ⟨hs, hp, h⟩)
    · right; right
      refine ⟨by simp [n1, n2, n3, n4, hr, hs], ?_⟩
      by_cases hm : ∃ s, ItemLine n s ∧ ∃ name m, ModelLine s name m
      · left
        refine ⟨hm, ?_⟩
        obtain ⟨s, h1, h2⟩ := hm
        have h := p3.mpr ⟨s, h1, h2, fun h => hr ⟨s, h1, h⟩, fun h => hs ⟨s, h1, h⟩⟩
        by_cases hp : HasParts n
        · rw [if_pos hp] at h; exact .inl h
        · rw [if_neg hp] at h; exact .inr h
      · exact .inr ⟨hm, p4.mpr fun s h1 => ⟨fun h => hr ⟨s, h1, h⟩, fun h => hs ⟨s, h1, h⟩, fun h => hm ⟨s, h1, h⟩⟩⟩

theorem section_iff {n : Node} {t : SectionType} (ht : t ∉ [.undefined, .model, .modelBody]) : recognise.actionNested n = t ↔ SectionOf n t := by
  have one := @is_one
  constructor
  · rintro rfl
    rcases nested_cases n with ⟨h, e⟩ | ⟨h, e⟩ | ⟨h, e⟩ | ⟨h, e⟩ | ⟨h, h', e⟩ | ⟨h, h', e⟩ | ⟨h, h', e⟩ | ⟨h, h', e⟩ | ⟨_, ⟨_, e | e⟩ | ⟨_, e⟩⟩
    · rw [e]; exact .relation h
    · rw [e]; exact .parameters h
    · rw [e]; exact .headers h
    · rw [e]; exact .attributes h
    · rw [e]; exact .request h h'
    · rw [e]; exact .shortRequest h h'
    · rw [e]; exact .response h h'
    · rw [e]; exact .shortResponse h h'
    · rw [e] at ht; simp at ht
    · rw [e] at ht; simp at ht
    · rw [e] at ht; simp at ht
  · intro hs
    have go : ∀ {i : Item}, Is i n → i ∈ [Item.relation, .parameters, .headers, .attributes, .request, .response] →
        (i = .relation → recognise.actionNested n = .relation) ∧ (i = .parameters → recognise.actionNested n = .parameters) ∧
        (i = .headers → recognise.actionNested n = .headers) ∧ (i = .attributes → recognise.actionNested n = .attributes) ∧
        (i = .request → HasParts n → recognise.actionNested n = .request) ∧ (i = .request → ¬ HasParts n → recognise.actionNested n = .requestBody) ∧
        (i = .response → HasParts n → recognise.actionNested n = .response) ∧
        (i = .response → ¬ HasParts n → recognise.actionNested n = .responseBody) := by
      intro i hi hm
      rcases nested_cases n with ⟨h, e⟩ | ⟨h, e⟩ | ⟨h, e⟩ | ⟨h, e⟩ | ⟨h, h', e⟩ | ⟨h, h', e⟩ | ⟨h, h', e⟩ | ⟨h, h', e⟩ | ⟨h, _⟩
      case inr.inr.inr.inr.inr.inr.inr.inr => exact absurd hi (h i hm)
      all_goals
        have := one hi h
        subst this
        first | simp [e, h'] | simp [e]
    cases hs with
    | relation h => exact (go (i := .relation) h (by decide)).1 rfl
    | parameters h => exact (go (i := .parameters) h (by decide)).2.1 rfl
    | headers h => exact (go (i := .headers) h (by decide)).2.2.1 rfl
    | attributes h => exact (go (i := .attributes) h (by decide)).2.2.2.1 rfl
    | request h h' => exact (go (i := .request) h (by decide)).2.2.2.2.1 rfl h'
    | shortRequest h h' => exact (go (i := .request) h (by decide)).2.2.2.2.2.1 rfl h'
    | response h h' => exact (go (i := .response) h (by decide)).2.2.2.2.2.2.1 rfl h'
    | shortResponse h h' => exact (go (i := .response) h (by decide)).2.2.2.2.2.2.2 rfl h'

theorem section_type {n : Node} {t : SectionType} (h : SectionOf n t) : t ∉ [.undefined, .model, .modelBody] := by
  cases h <;> decide

theorem part_iff (n : Node) : ActionPart n ↔ recognise.actionNested n ∉ [.undefined, .model, .modelBody] := by
  constructor
  · rintro ⟨t, h⟩
    have := section_type h
    rw [(section_iff this).mpr h]
    exact this
  · intro h; exact ⟨_, (section_iff h).mp rfl⟩

theorem model_iff (n : Node) : ModelItem n ↔ recognise.actionNested n = .model ∨ recognise.actionNested n = .modelBody := by
  unfold ModelItem
  rw [part_iff]
  rcases nested_cases n with ⟨h, e⟩ | ⟨h, e⟩ | ⟨h, e⟩ | ⟨h, e⟩ | ⟨h, h', e⟩ | ⟨h, h', e⟩ | ⟨h, h', e⟩ | ⟨h, h', e⟩ | ⟨_, ⟨h, e | e⟩ | ⟨h, e⟩⟩
  all_goals rw [e]; simp [h]

theorem asset_type (n : Node) : (recognise.assetType n = .body ↔ BodyItem n) ∧ (recognise.assetType n = .schema ↔ SchemaItem n) ∧
    (recognise.assetType n = .body ∨ recognise.assetType n = .schema ∨ recognise.assetType n = .undefined) := by
  refine ⟨(C77_asset n).1, (C77_asset n).2, ?_⟩
  show Recognise.ofList n (assetOf n) = _ ∨ Recognise.ofList n (assetOf n) = _ ∨ Recognise.ofList n (assetOf n) = _
  unfold Recognise.ofList assetOf
  repeat' split
  all_goals simp

/-- The block does not end the action. -/
def go (n : Node) : Bool :=
  if recognise.actionNested n ≠ .undefined then recognise.actionNested n ≠ .model && recognise.actionNested n ≠ .modelBody
  else if recognise.assetType n ≠ .undefined then true else recognise.isUnexpected actionUpper n

theorem unexpected_iff {n : Node} : recognise.isUnexpected actionUpper n = true ↔ ¬ Begins n := by
  rw [← begins_iff]
  unfold Recognise.isUnexpected
  cases h : actionUpper.contains (recognise.keyword n) with
  | false => simp
  | true =>
    simp only [Bool.not_true, Bool.false_eq_true, if_false, decide_eq_true_eq, not_true_eq_false, iff_false]
    intro h'
    rw [h'] at h
    revert h; decide

theorem header_nested {n : Node} (h : n.kind = .header) : recognise.actionNested n = .undefined ∧ recognise.assetType n = .undefined := by
  have l0 : ∀ t, Recognise.ofList n t = .undefined := by intro t; simp [Recognise.ofList, h]
  constructor
  · rw [nested_eq]
    simp only [Recognise.headersType, Recognise.attributesType, Recognise.payloadType, Recognise.parametersType, Recognise.relationType, l0]
    rfl
  · exact l0 _

theorem go_iff (n : Node) : go n = true ↔ ¬ Ends n := by
  unfold go Ends
  rw [model_iff]
  have hb : Begins n → n.kind = .header := fun h => h.1
  by_cases hu : recognise.actionNested n = .undefined
  · rw [if_neg (by simpa using hu), hu]
    by_cases ha : recognise.assetType n = .undefined
    · rw [if_neg (by simpa using ha), unexpected_iff]; simp
    · rw [if_pos ha]
      simp only [reduceCtorEq, or_self, or_false, true_iff]
      intro h; exact ha (header_nested (hb h)).2
  · rw [if_pos hu]
    have : ¬ Begins n := fun h => hu (header_nested (hb h)).1
    simp [this]

end Verif.Action
