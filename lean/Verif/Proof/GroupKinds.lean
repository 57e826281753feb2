import Verif.Proof.ResourceKinds
import Verif.Spec.Group

/-! # The blocks of a group -/

namespace Verif.Group
open Verif Verif.Text Verif.Regex Verif.Section Verif.Recognition Verif.Spec Verif.Spec.Recognition Verif.Spec.Payload Verif.Spec.Group Verif.Props
open Verif.Spec.Resource (ActionHeader WholeHeader)
open Verif.Resource (seen_one seen_some)

theorem header_iff (n : Node) : recognise.groupNested n ≠ .undefined ↔ ResourceHeader n := by
  have v : recognise.resourceType n = .resource ∨ recognise.resourceType n = .undefined := ofHeader_values _ _ _
  unfold ResourceHeader
  rw [← C74_resource, show recognise.groupNested n = recognise.resourceType n from rfl]
  rcases v with h | h <;> rw [h] <;> decide

theorem header_type (n : Node) (h : ResourceHeader n) : recognise.groupNested n = .resource := by
  have v : recognise.resourceType n = .resource ∨ recognise.resourceType n = .undefined := ofHeader_values _ _ _
  rcases v with h' | h'
  · exact h'
  · exact absurd h' ((header_iff n).mpr h)

theorem action_iff (n : Node) : recognise.actionType n = .dependent ↔ ActionHeader n := by
  unfold ActionHeader
  by_cases hk : n.kind = .header
  · obtain ⟨s, hs⟩ := seen_some n.text
    obtain ⟨t1, _, _⟩ := C74_action_type n hk s hs
    rw [t1]
    constructor
    · intro h; exact ⟨hk, s, hs, h⟩
    · rintro ⟨_, s', hs', h⟩; rw [seen_one hs' hs] at h; exact h
  · have e : recognise.actionType n = .notAction := by unfold Recognise.actionType; simp [hk]
    rw [e]; simp [hk]

theorem not_upper {n : Node} (h : n.kind ≠ .header) : upper.contains (recognise.keyword n) = false := by
  have := Action.not_upper h
  cases hc : upper.contains (recognise.keyword n) with
  | false => rfl
  | true =>
    have hm : recognise.keyword n ∈ upper := by simpa using hc
    have : recognise.keyword n ∉ Action.actionUpper := by simpa using this
    exfalso; apply this
    simp only [upper, List.mem_cons, List.not_mem_nil, or_false] at hm
    rcases hm with hm | hm <;> rw [hm] <;> decide

theorem closes_iff (n : Node) : upper.contains (recognise.keyword n) = true ↔ Closes n := by
  unfold Closes
  by_cases hh : n.kind = .header
  · rw [Action.first_header hh]
    have t1 := typeSection_iff n
    have r1 := C74_resource n
    have r2 := C74_action n
    have r3 := C74_group n
    have r4 := C74_data n
    have tv := Action.typeSection_values' n
    have no : ¬ ∃ s, ItemLine n s ∧ TypeSectionForm s := by
      rw [itemLine_iff, hh]; simp
    have v1 := ofHeader_values n (recognise.resource n.text) .resource
    have v2 := ofHeader_values n (recognise.action n.text || recognise.namedAction n.text) .action
    have v3 := ofHeader_values n (recognise.group n.text) .resourceGroup
    have v4 := ofHeader_values n (recognise.dataStructures n.text) .dataStructureGroup
    change recognise.resourceType n = _ ∨ recognise.resourceType n = _ at v1
    change recognise.actionSectionType n = _ ∨ recognise.actionSectionType n = _ at v2
    change recognise.groupType n = _ ∨ recognise.groupType n = _ at v3
    change recognise.dataStructuresType n = _ ∨ recognise.dataStructuresType n = _ at v4
    have na : (∃ s, Seen n.text s ∧ ¬ ResourceForm s ∧ ¬ ActionForm s) ↔
        (¬ ∃ s, Seen n.text s ∧ ResourceForm s) ∧ ¬ ∃ s, Seen n.text s ∧ ActionForm s := by
      constructor
      · rintro ⟨s, hs, h1, h2⟩
        constructor
        · rintro ⟨s', hs', h'⟩; rw [seen_one hs' hs] at h'; exact h1 h'
        · rintro ⟨s', hs', h'⟩; rw [seen_one hs' hs] at h'; exact h2 h'
      · rintro ⟨h1, h2⟩
        obtain ⟨s, hs⟩ := seen_some n.text
        exact ⟨s, hs, fun h' => h1 ⟨s, hs, h'⟩, fun h' => h2 ⟨s, hs, h'⟩⟩
    simp only [hh, true_and] at t1 r1 r2 r3 r4 ⊢
    rw [or_iff_left no] at t1
    rw [na, ← r1, ← r2, ← r3, ← r4, ← t1, not_not]
    generalize recognise.typeSectionType n = a at *
    generalize recognise.resourceType n = b at *
    generalize recognise.actionSectionType n = c at *
    generalize recognise.groupType n = d at *
    generalize recognise.dataStructuresType n = e at *
    clear t1 r1 r2 r3 r4 no na
    simp only [List.mem_cons, List.not_mem_nil, or_false] at tv
    rcases tv with rfl | rfl | rfl | rfl <;> rcases v1 with rfl | rfl <;> rcases v2 with rfl | rfl <;> rcases v3 with rfl | rfl <;>
      rcases v4 with rfl | rfl <;> decide
  · rw [not_upper hh]
    simp [hh]

theorem closes_not {n : Node} (h : Closes n) : ¬ ResourceHeader n ∧ ¬ ActionHeader n := by
  obtain ⟨hk, _, ⟨s, hs, h1, h2⟩, _⟩ := h
  constructor
  · rintro ⟨_, s', hs', h'⟩; rw [seen_one hs' hs] at h'; exact h1 h'
  · rintro ⟨_, s', hs', h'⟩
    rw [seen_one hs' hs] at h'
    rcases h' with ⟨a, b, c, h'⟩ | ⟨m, h'⟩
    · exact h2 (.inr ⟨a, b, c, h'⟩)
    · exact h2 (.inl ⟨m, [], h'⟩)

/-- The block does not end the group. -/
def go (n : Node) : Bool := if recognise.groupNested n ≠ .undefined then true else isUnexpected n

theorem unexpected_iff {n : Node} : recognise.isUnexpected upper n = true ↔ ¬ upper.contains (recognise.keyword n) = true := by
  unfold Recognise.isUnexpected
  cases h : upper.contains (recognise.keyword n) with
  | false => simp
  | true =>
    simp only [Bool.not_true, Bool.false_eq_true, if_false, decide_eq_true_eq, not_true_eq_false, iff_false]
    intro h'
    rw [h'] at h
    revert h; decide

theorem go_iff (n : Node) : go n = true ↔ ¬ Closes n := by
  unfold go isUnexpected
  by_cases hu : recognise.groupNested n = .undefined
  · rw [if_neg (by simpa using hu)]
    by_cases ha : recognise.actionType n = .dependent
    · rw [if_pos ha]
      simp only [true_iff]
      exact fun h => (closes_not h).2 ((action_iff n).mp ha)
    · rw [if_neg ha, unexpected_iff, closes_iff]
  · rw [if_pos hu]
    simp only [true_iff]
    exact fun h => (closes_not h).1 ((header_iff n).mp hu)

theorem description_iff (n : Node) : isDescription n = true ↔ ¬ AfterDescription n := by
  unfold isDescription AfterDescription
  rw [← Resource.whole_iff, ← header_iff, ← closes_iff]
  by_cases hw : recognise.actionType n = .complete
  · simp [hw]
  · rw [if_neg hw]
    unfold Recognise.isDescription
    by_cases hu : recognise.groupNested n = .undefined
    · rw [if_neg (by simpa using hu)]
      have hk : recognise.keyword n = .undefined → upper.contains (recognise.keyword n) = false := by intro h; rw [h]; decide
      cases hc : upper.contains (recognise.keyword n) with
      | false => simp [hu, hw]
      | true =>
        have : recognise.keyword n ≠ .undefined := fun h => by rw [hk h] at hc; cases hc
        simp [hu, this]
    · rw [if_pos hu]; simp [hu]

end Verif.Group
