import Verif.Proof.MsonRoles
import Verif.Proof.PayloadSpec
import Mathlib.Data.List.Induction

/-! # The blocks of a member, by their roles -/

namespace Verif.MsonParser
open Verif Verif.Text Verif.Section Verif.Recognition Verif.Spec Verif.Spec.MsonParser Verif.Props
open Verif.Mson (Base TypeDef Context)
open Verif.DataStructure (Klass Element)

/-! ## Base types -/

theorem isObject_iff {b : Base} : isObject b = true ↔ ObjectBase b := by cases b <;> simp [isObject, ObjectBase]
theorem isValue_iff {b : Base} : isValue b = true ↔ ListBase b := by cases b <;> simp [isValue, ListBase]
theorem isPrimitive_iff {b : Base} : isPrimitive b = true ↔ ScalarBase b := by cases b <;> simp [isPrimitive, ScalarBase]
theorem sameBase_iff {a b : Base} : sameBase a b = true ↔ Alike a b := by
  cases a <;> cases b <;> simp [sameBase, Alike, ObjectBase, ListBase, ScalarBase]

theorem object_not {b : Base} (h : ObjectBase b) : ¬ ListBase b ∧ ¬ ScalarBase b ∧ b ≠ .undefined := by
  rcases h with rfl | rfl <;> simp [ListBase, ScalarBase]
theorem list_not {b : Base} (h : ListBase b) : ¬ ObjectBase b ∧ ¬ ScalarBase b ∧ b ≠ .undefined := by
  rcases h with rfl | rfl <;> simp [ObjectBase, ScalarBase]
theorem scalar_not {b : Base} (h : ScalarBase b) : ¬ ObjectBase b ∧ ¬ ListBase b ∧ b ≠ .undefined := by
  rcases h with rfl | rfl <;> simp [ObjectBase, ListBase]

theorem base_cases (b : Base) : ObjectBase b ∨ ListBase b ∨ ScalarBase b ∨ b = .undefined := by
  cases b <;> simp [ObjectBase, ListBase, ScalarBase]

theorem oneOf_item {n : Node} (h : IsOneOf n) : n.kind = .listItem := by obtain ⟨s, h, _⟩ := h; exact line_item h

theorem oneOf_not_part {n : Node} (h : IsOneOf n) : ¬ ∃ t, IsPart n t := by
  rintro ⟨t, hp⟩
  exact (part_ne hp).1 ((part_types hp).2.2.symm.trans (oneOf_types h).2.2)

theorem include_not_part {n : Node} (h : IsInclude n) : ¬ ∃ t, IsPart n t := by
  rintro ⟨t, hp⟩
  exact (part_ne hp).1 ((part_types hp).2.2.symm.trans (include_types h).2.2)

theorem plain_not_part {n : Node} (h : IsPlain n) : ¬ ∃ t, IsPart n t := by
  rintro ⟨t, hp⟩
  exact (part_ne hp).1 ((part_types hp).2.2.symm.trans (plain_types h).2.2)

theorem text_not_part {n : Node} (h : IsText n) : ¬ ∃ t, IsPart n t := by
  rintro ⟨t, hp⟩
  exact h.2 (part_item hp)

theorem include_not_oneOf {n : Node} (h : IsInclude n) : ¬ IsOneOf n := fun ho => by
  have h1 := (include_types h).1
  rw [(oneOf_types ho).1] at h1
  cases h1

theorem part_unique {n : Node} {t u : SectionType} (h : IsPart n t) (h' : IsPart n u) : t = u :=
  (part_types h).2.2.symm.trans (part_types h').2.2

/-- `resolveBase` is what the block settles. -/
theorem settles_iff {b b' : Base} {n : Node} (hh : n.kind ≠ .header) : Settles b n b' ↔ b' = resolveBase n (memberNested n) b := by
  by_cases hb : b = .undefined
  case neg =>
    have e : resolveBase n (memberNested n) b = b := by unfold resolveBase; rw [if_pos hb]
    rw [e]
    constructor
    · intro h; cases h <;> first | rfl | contradiction
    · rintro rfl; exact .known hb
  subst hb
  cases role n with
  | header h => exact absurd h hh
  | text h =>
    rw [member_text h]
    simp only [resolveBase, ne_eq, not_true_eq_false, if_false, h.2]
    constructor
    · intro hs
      cases hs with
      | known h0 => exact absurd rfl h0
      | object _ h1 =>
        rcases h1 with h1 | h1 | h1 | h1
        · exact absurd h1.1 h.2
        · exact absurd (include_item h1) h.2
        · exact absurd (oneOf_item h1) h.2
        · exact absurd ⟨_, .properties h1⟩ (text_not_part h)
      | sample _ h1 => exact absurd ⟨_, .sample h1⟩ (text_not_part h)
      | items => rfl
      | text => rfl
    · rintro rfl; exact .text rfl h
  | plain h =>
    rw [member_plain h]
    simp only [resolveBase, ne_eq, not_true_eq_false, if_false, h.1, if_true]
    constructor
    · intro hs
      cases hs with
      | known h0 => exact absurd rfl h0
      | object => rfl
      | sample _ h1 => exact absurd ⟨_, .sample h1⟩ (plain_not_part h)
      | items _ h1 => exact absurd ⟨_, .items h1⟩ (plain_not_part h)
      | text _ h1 => exact absurd h.1 h1.2
    · rintro rfl; exact .object rfl (.inl h)
  | include_ h =>
    rw [member_include h]
    simp only [resolveBase, ne_eq, not_true_eq_false, if_false, include_item h, if_true]
    constructor
    · intro hs
      cases hs with
      | known h0 => exact absurd rfl h0
      | object => rfl
      | sample _ h1 => exact absurd ⟨_, .sample h1⟩ (include_not_part h)
      | items _ h1 => exact absurd ⟨_, .items h1⟩ (include_not_part h)
      | text _ h1 => exact absurd (include_item h) h1.2
    · rintro rfl; exact .object rfl (.inr (.inl h))
  | oneOf h =>
    rw [member_oneOf h]
    simp only [resolveBase, ne_eq, not_true_eq_false, if_false, oneOf_item h, if_true]
    constructor
    · intro hs
      cases hs with
      | known h0 => exact absurd rfl h0
      | object => rfl
      | sample _ h1 => exact absurd ⟨_, .sample h1⟩ (oneOf_not_part h)
      | items _ h1 => exact absurd ⟨_, .items h1⟩ (oneOf_not_part h)
      | text _ h1 => exact absurd (oneOf_item h) h1.2
    · rintro rfl; exact .object rfl (.inr (.inr (.inl h)))
  | @part t h =>
    rw [member_part h]
    constructor
    · intro hs
      cases hs with
      | known h0 => exact absurd rfl h0
      | object _ h1 =>
        rcases h1 with h1 | h1 | h1 | h1
        · exact absurd ⟨_, h⟩ (plain_not_part h1)
        · exact absurd ⟨_, h⟩ (include_not_part h1)
        · exact absurd ⟨_, h⟩ (oneOf_not_part h1)
        · rw [part_unique h (.properties h1)]; simp [resolveBase]
      | sample _ h1 => rw [part_unique h (.sample h1)]; simp [resolveBase]
      | items _ h1 => rw [part_unique h (.items h1)]; simp [resolveBase]
      | text _ h1 => exact absurd ⟨_, h⟩ (text_not_part h1)
    · rintro rfl
      cases h with
      | sample h => simp only [resolveBase, ne_eq, not_true_eq_false, if_false]; exact .sample rfl h
      | items h => simp only [resolveBase, ne_eq, not_true_eq_false, if_false]; exact .items rfl h
      | properties h => simp only [resolveBase, ne_eq, not_true_eq_false, if_false]; exact .object rfl (.inr (.inr (.inr h)))

/-! ## Sections -/

/-- Sections as these parsers make them. -/
def Neat (ss : List TypeSection) : Prop := ∀ s ∈ ss, ∃ k d v es, s = sectionOf k d v es

/-- With more members. -/
def joined (ss : List TypeSection) (fs : List Element) : List TypeSection :=
  match ss.getLast? with
  | some s => if s.klass = .members then ss.dropLast ++ [sectionOf s.klass s.description s.value (s.elements ++ fs)]
      else ss ++ [sectionOf .members [] [] fs]
  | none => [sectionOf .members [] [] fs]

theorem last_cases (ss : List TypeSection) : ss = [] ∨ ∃ l s, ss = l ++ [s] := by
  induction ss using List.reverseRecOn with
  | nil => exact .inl rfl
  | append_singleton l s _ => exact .inr ⟨l, s, rfl⟩

theorem joined_nil {ss : List TypeSection} (h : Neat ss) : joined ss [] = openSection ss := by
  rcases last_cases ss with rfl | ⟨l, s, rfl⟩
  · rfl
  · obtain ⟨k, d, v, es, rfl⟩ := h s (by simp)
    by_cases hk : k = .members <;>
      simp [joined, openSection, sectionOf, DataStructure.Section.klass, hk, DataStructure.Section.description,
        DataStructure.Section.value, DataStructure.Section.elements]

theorem joined_one (ss : List TypeSection) (e : Element) : joined ss [e] = pushLast (openSection ss) e := by
  rcases last_cases ss with rfl | ⟨l, s, rfl⟩
  · simp [joined, openSection, pushLast, sectionOf, DataStructure.Section.klass, DataStructure.Section.description,
      DataStructure.Section.value, DataStructure.Section.elements]
  · by_cases hk : s.klass = .members
    · simp [joined, openSection, pushLast, hk]
    · have e1 : openSection (l ++ [s]) = (l ++ [s]) ++ [sectionOf .members [] [] []] := by simp [openSection, hk]
      have e2 : joined (l ++ [s]) [e] = (l ++ [s]) ++ [sectionOf .members [] [] [e]] := by simp [joined, hk]
      rw [e1, e2, pushLast, List.getLast?_concat, List.dropLast_concat]
      rfl

theorem joins_members {ss ss' : List TypeSection} {fs : List Element} (h : Neat ss) :
    Joins ss (.members fs) ss' ↔ ss' = joined ss fs := by
  constructor
  · intro hj
    cases hj with
    | more => simp [joined, sectionOf, DataStructure.Section.klass, DataStructure.Section.description,
        DataStructure.Section.value, DataStructure.Section.elements]
    | first hn =>
      rcases last_cases ss with rfl | ⟨l, s, rfl⟩
      · rfl
      · have := hn s (by simp)
        simp [joined, this]
  · rintro rfl
    rcases last_cases ss with rfl | ⟨l, s, rfl⟩
    · exact .first (by simp)
    · obtain ⟨k, d, v, es, rfl⟩ := h s (by simp)
      by_cases hk : k = .members
      · subst hk
        have : joined (l ++ [sectionOf .members d v es]) fs = l ++ [sectionOf .members d v (es ++ fs)] := by
          simp [joined, sectionOf, DataStructure.Section.klass, DataStructure.Section.description,
            DataStructure.Section.value, DataStructure.Section.elements]
        rw [this]; exact .more
      · have hk' : (sectionOf k d v es).klass ≠ .members := by simpa [sectionOf, DataStructure.Section.klass] using hk
        have : joined (l ++ [sectionOf k d v es]) fs = l ++ [sectionOf k d v es] ++ [sectionOf .members [] [] fs] := by
          simp [joined, hk']
        rw [this]; exact .first (by simpa using hk')

theorem joins_section {ss ss' : List TypeSection} {s : TypeSection} : Joins ss (.section_ s) ss' ↔ ss' = ss ++ [s] := by
  constructor
  · intro h; cases h; rfl
  · rintro rfl; exact .section_

theorem joins_nothing {ss ss' : List TypeSection} : Joins ss .nothing ss' ↔ ss' = ss := by
  constructor
  · intro h; cases h; rfl
  · rintro rfl; exact .nothing

theorem neat_joined {ss : List TypeSection} (h : Neat ss) (fs : List Element) : Neat (joined ss fs) ∧ Open (joined ss fs) := by
  rcases last_cases ss with rfl | ⟨l, s, rfl⟩
  · refine ⟨?_, ?_⟩
    · intro s hs
      simp only [joined, List.getLast?_nil, List.mem_singleton] at hs
      exact ⟨_, _, _, _, hs⟩
    · intro s hs
      simp only [joined, List.getLast?_nil, List.getLast?_singleton, Option.mem_def, Option.some.injEq] at hs
      subst hs; simp [sectionOf, DataStructure.Section.klass]
  · by_cases hk : s.klass = .members
    · have e : joined (l ++ [s]) fs = l ++ [sectionOf .members s.description s.value (s.elements ++ fs)] := by simp [joined, hk]
      rw [e]
      refine ⟨?_, ?_⟩
      · intro x hx
        rcases List.mem_append.mp hx with hx | hx
        · exact h x (by simp [hx])
        · exact ⟨_, _, _, _, List.mem_singleton.mp hx⟩
      · intro x hx
        rw [List.getLast?_concat] at hx
        cases hx; simp [sectionOf, DataStructure.Section.klass]
    · have e : joined (l ++ [s]) fs = l ++ [s] ++ [sectionOf .members [] [] fs] := by simp [joined, hk]
      rw [e]
      refine ⟨?_, ?_⟩
      · intro x hx
        rcases List.mem_append.mp hx with hx | hx
        · exact h x hx
        · exact ⟨_, _, _, _, List.mem_singleton.mp hx⟩
      · intro x hx
        rw [List.getLast?_concat] at hx
        cases hx; simp [sectionOf, DataStructure.Section.klass]

/-! ## Blocks -/

theorem doubt_iff {x : Warning} {v : ValueNode} {ws : List Warning} : Doubt x v ws ↔ ws = checked v x := by
  by_cases h : ObjectBase v.definition.type.base ∧ v.definition.values ≠ []
  · have e : checked v x = [x] := if_pos ⟨isObject_iff.mpr h.1, h.2⟩
    rw [e]
    constructor
    · intro hd; cases hd with
      | yes => rfl
      | no hn => exact absurd h hn
    · rintro rfl; exact .yes h.1 h.2
  · have e : checked v x = [] := if_neg fun h' => h ⟨isObject_iff.mp h'.1, h'.2⟩
    rw [e]
    constructor
    · intro hd; cases hd with
      | yes h1 h2 => exact absurd ⟨h1, h2⟩ h
      | no => rfl
    · rintro rfl; exact .no h

end Verif.MsonParser
