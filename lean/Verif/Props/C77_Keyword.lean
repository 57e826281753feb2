import Verif.Props.C77
import Mathlib.Tactic.ByContra
/-!
# C77: which blocks start a section
-/
namespace Verif.Props
open Verif Verif.Text Verif.Signature Verif.Regex Verif.Spec Verif.Spec.Regex Verif.Spec.Recognition Verif.Section
open Verif.Recognition

/-- A header that starts a section: a resource, an action, a group, data structures or a section of an MSON type. -/
def HeaderSection (n : Node) : Prop :=
  n.kind = .header ∧ ((∃ s, Seen n.text s ∧ (ResourceForm s ∨ ActionForm s ∨ ∃ name, GroupLine s name)) ∨
    ∃ l s, FirstLine n.text l ∧ Seen l s ∧ (DataLine s ∨ TypeSectionForm s))

/-- A list item that starts a section: its first line has one of the forms (`Values` and `Include …` are looked for in the
whole first block). -/
def ItemSection (n : Node) : Prop :=
  (∃ s, ItemLine n s ∧ ((∃ i : Item, i ≠ .values ∧ i ≠ .mixin ∧ i.Form s) ∨ ∃ name m, ModelLine s name m)) ∨
    ∃ s, ItemBlock n s ∧ (ValuesLine s ∨ MixinLine s)

theorem ofList_values {n : Node} {b : Bool} {t : SectionType} :
    Recognise.ofList n (Recognise.when b t) = t ∨ Recognise.ofList n (Recognise.when b t) = .undefined := by
  unfold Recognise.ofList Recognise.when
  split
  · cases b <;> simp
  · exact .inr rfl

theorem ne_undefined {x t : SectionType} {P : Prop} (ht : t ≠ .undefined) (hv : x = t ∨ x = .undefined) (h : x = t ↔ P) :
    x ≠ .undefined ↔ P := by
  rw [← h]
  rcases hv with rfl | rfl
  · simp [ht]
  · simp [ht.symm]

/-- C77: a list item is a body or a schema exactly if its first line is that word. -/
theorem C77_asset (n : Node) :
    (recognise.assetType n = .body ↔ ∃ s, ItemLine n s ∧ BodyLine s) ∧
    (recognise.assetType n = .schema ↔ ∃ s, ItemLine n s ∧ SchemaLine s) := by
  simp only [itemLine_iff]
  unfold Recognise.assetType Recognise.ofList
  by_cases hk : n.kind = .listItem ∧ n.children ≠ []
  · rw [if_pos hk]
    show (assetOf n = _ ↔ _) ∧ (assetOf n = _ ↔ _)
    have ex : BodyLine (cstr (frontLine n)) → ¬ SchemaLine (cstr (frontLine n)) := fun h =>
      not_form (i := .body) h (j := .schema) (by decide)
    unfold assetOf
    rw [← m_body, ← m_schema] at *
    by_cases h1 : regexMatch (frontLine n) bodyRegex = true
    · rw [if_pos h1]; simp [h1, ex h1]; exact hk
    · rw [if_neg h1]
      by_cases h2 : regexMatch (frontLine n) schemaRegex = true
      · rw [if_pos h2]; simp only [reduceCtorEq, h1, h2]; simp [hk]
      · rw [if_neg h2]; simp [h1, h2]
  · rw [if_neg hk]; simp only [eq_false hk]; simp

theorem typeSection_iff (n : Node) : recognise.typeSectionType n ≠ .undefined ↔
    (n.kind = .header ∧ ∃ l s, FirstLine n.text l ∧ Seen l s ∧ TypeSectionForm s) ∨ ∃ s, ItemLine n s ∧ TypeSectionForm s := by
  rw [itemLine_iff]
  have key : ∀ t : Bytes, (if (regexMatch t defaultRegex || regexMatch t sampleRegex) = true then SectionType.msonSampleDefault
      else if regexMatch t valueMembersRegex = true then .msonValueMembers
      else if regexMatch t propertyMembersRegex = true then .msonPropertyMembers else .undefined) ≠ .undefined ↔
      TypeSectionForm (cstr t) := by
    intro t
    unfold TypeSectionForm
    rw [← m_default, ← m_sample, ← m_valueMembers, ← m_propertyMembers]
    split
    · rename_i h; simp only [Bool.or_eq_true] at h; rcases h with h | h <;> simp [h]
    · rename_i h; simp only [Bool.or_eq_true, not_or] at h
      split
      · rename_i h'; simp [h']
      · rename_i h'
        split
        · rename_i h''; simp [h'']
        · rename_i h''; simp [h, h', h'']
  have hempty : ¬ TypeSectionForm (cstr (trim (getFirstLine []).1)) := by
    rw [← key]
    decide +kernel
  have hl : (∃ l s, FirstLine n.text l ∧ Seen l s ∧ TypeSectionForm s) ↔ TypeSectionForm (cstr (trim (getFirstLine n.text).1)) := by
    simp only [firstLine_iff, seen_iff]
    constructor
    · rintro ⟨_, _, rfl, rfl, h⟩; exact h
    · intro h; exact ⟨_, _, rfl, rfl, h⟩
  rw [hl]
  unfold Recognise.typeSectionType
  by_cases h1 : n.kind = .header ∧ n.text ≠ []
  · rw [if_pos (.inl h1)]
    show typeSectionOf n ≠ _ ↔ _
    unfold typeSectionOf
    simp only [if_pos h1]
    rw [key]
    simp [h1.1]
  · by_cases h2 : n.kind = .listItem ∧ n.children ≠ []
    · rw [if_pos (.inr h2)]
      show typeSectionOf n ≠ _ ↔ _
      unfold typeSectionOf
      simp only [if_neg h1, if_pos h2]
      rw [show trim (getFirstLine (frontText n)).1 = frontLine n from rfl, key]
      simp [h2]
    · rw [if_neg (by
        rintro (h | h)
        · exact h1 h
        · exact h2 h)]
      simp only [ne_eq, not_true_eq_false, eq_false h2, false_and, or_false, false_iff, not_and]
      intro hh
      have : n.text = [] := by
        by_cases ht : n.text = []
        · exact ht
        · exact absurd ⟨hh, ht⟩ h1
      rw [this]; exact hempty

theorem payload_iff (n : Node) : recognise.payloadType n ≠ .undefined ↔
    ∃ s, ItemLine n s ∧ (Item.Form .request s ∨ Item.Form .response s ∨ ∃ name m, ModelLine s name m) := by
  haveI := Classical.propDecidable (∃ c ∈ n.children, PayloadPart c)
  have h := (C77_payload n (∃ c ∈ n.children, PayloadPart c) Iff.rfl).2.2.2
  rw [Ne, h]
  constructor
  · intro h
    by_contra hc
    apply h
    intro s hs
    refine ⟨fun x => hc ⟨s, hs, .inl x⟩, fun x => hc ⟨s, hs, .inr (.inl x)⟩, fun x => hc ⟨s, hs, .inr (.inr x)⟩⟩
  · rintro ⟨s, hs, hf⟩ h
    obtain ⟨h1, h2, h3⟩ := h s hs
    rcases hf with hf | hf | hf
    · exact h1 hf
    · exact h2 hf
    · exact h3 hf

/-- C77: a block starts a section exactly if it is a header or a list item of one of the forms. -/
theorem C77_keyword (n : Node) : recognise.keyword n ≠ .undefined ↔ HeaderSection n ∨ ItemSection n := by
  obtain ⟨s1, s2, s3, s4, s5, s6, s7⟩ := C77_sections n
  have u1 := ne_undefined (by decide) ofList_values s1
  have u2 := ne_undefined (by decide) ofList_values s2
  have u3 := ne_undefined (by decide) ofList_values s3
  have u4 := ne_undefined (by decide) ofList_values s4
  have u5 := ne_undefined (by decide) ofList_values s5
  have u6 := ne_undefined (by decide) ofList_values s6
  have u7 := ne_undefined (by decide) ofList_values s7
  have u8 := typeSection_iff n
  have u9 := payload_iff n
  have ua : recognise.assetType n ≠ .undefined ↔ ∃ s, ItemLine n s ∧ (BodyLine s ∨ SchemaLine s) := by
    unfold Recognise.assetType Recognise.ofList
    rw [itemLine_iff]
    by_cases hk : n.kind = .listItem ∧ n.children ≠ []
    · rw [if_pos hk]
      show assetOf n ≠ _ ↔ _
      rw [asset_iff]; simp [hk]
    · rw [if_neg hk]; simp only [eq_false hk]; simp
  have r1 := ne_undefined (by decide) (ofHeader_values ..) (C74_resource n)
  have r2 := ne_undefined (by decide) (ofHeader_values ..) (C74_action n)
  have r3 := ne_undefined (by decide) (ofHeader_values ..) (C74_group n)
  have r4 := ne_undefined (by decide) (ofHeader_values ..) (C74_data n)
  unfold Recognise.keyword
  rw [Ne, first_undefined]
  simp only [List.forall_mem_cons, List.not_mem_nil, false_imp_iff, implies_true, and_true]
  constructor
  · intro h
    by_contra hc
    rw [not_or] at hc
    obtain ⟨hc1, hc2⟩ := hc
    apply h
    have item : ∀ {x : SectionType} (i : Item), i ≠ .values → i ≠ .mixin → (x ≠ .undefined ↔ ∃ s, ItemLine n s ∧ i.Form s) → x = .undefined := by
      intro x i h1 h2 hx
      by_contra hne
      obtain ⟨s, hs, hf⟩ := hx.mp hne
      exact hc2 (.inl ⟨s, hs, .inl ⟨i, h1, h2, hf⟩⟩)
    refine ⟨?_, ?_, item .oneOf (by decide) (by decide) u5, item .headers (by decide) (by decide) u1, ?_,
      item .attributes (by decide) (by decide) u3, ?_, ?_, item .parameters (by decide) (by decide) u2,
      item .relation (by decide) (by decide) u4, ?_, ?_, ?_, ?_⟩ <;> by_contra hne
    · rcases u8.mp hne with ⟨hk, l, s, h1, h2, h3⟩ | ⟨s, h1, h2⟩
      · exact hc1 ⟨hk, .inr ⟨l, s, h1, h2, .inr h3⟩⟩
      · refine hc2 (.inl ⟨s, h1, .inl ?_⟩)
        rcases h2 with h2 | h2 | h2 | h2
        · exact ⟨.sampleDefault, by decide, by decide, .inl h2⟩
        · exact ⟨.sampleDefault, by decide, by decide, .inr h2⟩
        · exact ⟨.valueMembers, by decide, by decide, h2⟩
        · exact ⟨.propertyMembers, by decide, by decide, h2⟩
    · obtain ⟨s, h1, h2⟩ := u7.mp hne
      exact hc2 (.inr ⟨s, h1, .inr h2⟩)
    · obtain ⟨s, h1, h2⟩ := ua.mp hne
      refine hc2 (.inl ⟨s, h1, .inl ?_⟩)
      rcases h2 with h2 | h2
      · exact ⟨.body, by decide, by decide, h2⟩
      · exact ⟨.schema, by decide, by decide, h2⟩
    · obtain ⟨s, h1, h2⟩ := u9.mp hne
      rcases h2 with h2 | h2 | h2
      · exact hc2 (.inl ⟨s, h1, .inl ⟨.request, by decide, by decide, h2⟩⟩)
      · exact hc2 (.inl ⟨s, h1, .inl ⟨.response, by decide, by decide, h2⟩⟩)
      · exact hc2 (.inl ⟨s, h1, .inr h2⟩)
    · obtain ⟨s, h1, h2⟩ := u6.mp hne
      exact hc2 (.inr ⟨s, h1, .inl h2⟩)
    · obtain ⟨hk, s, h1, h2⟩ := r1.mp hne
      exact hc1 ⟨hk, .inl ⟨s, h1, .inl h2⟩⟩
    · obtain ⟨hk, s, h1, h2⟩ := r2.mp hne
      exact hc1 ⟨hk, .inl ⟨s, h1, .inr (.inl h2)⟩⟩
    · obtain ⟨hk, s, name, h1, h2⟩ := r3.mp hne
      exact hc1 ⟨hk, .inl ⟨s, h1, .inr (.inr ⟨name, h2⟩)⟩⟩
    · obtain ⟨hk, l, s, h1, h2, h3⟩ := r4.mp hne
      exact hc1 ⟨hk, .inr ⟨l, s, h1, h2, .inl h3⟩⟩
  · rintro h ⟨t1, t2, t3, t4, t5, t6, t7, t8, t9, t10, t11, t12, t13, t14⟩
    rcases h with ⟨hk, ⟨s, h1, h2⟩ | ⟨l, s, h1, h2, h3⟩⟩ | ⟨s, h1, ⟨i, hi, hi', h2⟩ | h2⟩ | ⟨s, h1, h2⟩
    · rcases h2 with h2 | h2 | ⟨name, h2⟩
      · exact r1.mpr ⟨hk, s, h1, h2⟩ t11
      · exact r2.mpr ⟨hk, s, h1, h2⟩ t12
      · exact r3.mpr ⟨hk, s, name, h1, h2⟩ t13
    · rcases h3 with h3 | h3
      · exact r4.mpr ⟨hk, l, s, h1, h2, h3⟩ t14
      · exact u8.mpr (.inl ⟨hk, l, s, h1, h2, h3⟩) t1
    · cases i with
      | headers => exact u1.mpr ⟨s, h1, h2⟩ t4
      | parameters => exact u2.mpr ⟨s, h1, h2⟩ t9
      | attributes => exact u3.mpr ⟨s, h1, h2⟩ t6
      | body => exact ua.mpr ⟨s, h1, .inl h2⟩ t5
      | schema => exact ua.mpr ⟨s, h1, .inr h2⟩ t5
      | values => exact hi rfl
      | oneOf => exact u5.mpr ⟨s, h1, h2⟩ t3
      | sampleDefault =>
        refine u8.mpr (.inr ⟨s, h1, ?_⟩) t1
        rcases h2 with h2 | h2
        · exact .inl h2
        · exact .inr (.inl h2)
      | valueMembers => exact u8.mpr (.inr ⟨s, h1, .inr (.inr (.inl h2))⟩) t1
      | propertyMembers => exact u8.mpr (.inr ⟨s, h1, .inr (.inr (.inr h2))⟩) t1
      | mixin => exact hi' rfl
      | relation => exact u4.mpr ⟨s, h1, h2⟩ t10
      | request => exact u9.mpr ⟨s, h1, .inl h2⟩ t7
      | response => exact u9.mpr ⟨s, h1, .inr (.inl h2)⟩ t7
    · exact u9.mpr ⟨s, h1, .inr (.inr h2)⟩ t7
    · rcases h2 with h2 | h2
      · exact u6.mpr ⟨s, h1, h2⟩ t8
      · exact u7.mpr ⟨s, h1, h2⟩ t2

example : recognise.assetType (oneItem "Body") = .body ∧ recognise.assetType (oneItem "schema") = .schema := by decide +kernel
example : ¬ (HeaderSection (oneItem "see") ∨ ItemSection (oneItem "see")) := by rw [← C77_keyword]; decide +kernel
example : HeaderSection (oneItem "Body") ∨ ItemSection (oneItem "Body") := by rw [← C77_keyword]; decide +kernel

end Verif.Props
