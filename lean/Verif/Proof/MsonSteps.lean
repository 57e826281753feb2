import Verif.Proof.MsonBlocks
import Verif.Props.C77_Keyword

/-! # The blocks of a member: one step, and all of them -/

namespace Verif.MsonParser
open Verif Verif.Text Verif.Section Verif.Recognition Verif.Spec Verif.Spec.MsonParser Verif.Props
open Verif.Mson (Base TypeDef Context)
open Verif.DataStructure (Klass Element)

theorem take_iff {α β : Type} {r : Reader β} {add : Out α → β → Out α} {n : Node} {o o' : Out α} {c : Bool} :
    take r add n o = .ok (c, o') ↔ c = true ∧ ∃ q, r n o.types = .ok q ∧ o' = add ⟨o.node, q.types, o.warnings ++ q.warnings⟩ q.node := by
  unfold take
  cases r n o.types with
  | error e => simp
  | ok q =>
    simp only [Except.ok.injEq, Prod.mk.injEq, exists_eq_left']
    exact ⟨fun ⟨a, b⟩ => ⟨a.symm, b.symm⟩, fun ⟨a, b⟩ => ⟨a.symm, b.symm⟩⟩

theorem heading_iff {n : Node} (h : n.kind = .header) : recognise.typeSectionType n ≠ .undefined ↔ IsHeading n := by
  rw [typeSection_iff]
  constructor
  · rintro (⟨h1, h2⟩ | ⟨s, ⟨_, _, ⟨h1, _⟩, _⟩, _⟩)
    · exact ⟨h1, h2⟩
    · rw [h] at h1; cases h1
  · intro hh; exact .inl hh

/-- A member block that is not a part: the value of the step. -/
theorem member_mson (w : World) (R : Readers) {n : Node} (h : memberNested n = .mson) (o : Out Body) :
    memberStep w R n o = msonStep w R .mson n o := by unfold memberStep; simp only [h]

theorem member_mixin (w : World) (R : Readers) {n : Node} (h : memberNested n = .msonMixin) (o : Out Body) :
    memberStep w R n o = msonStep w R .msonMixin n o := by unfold memberStep; simp only [h]

theorem member_choice (w : World) (R : Readers) {n : Node} (h : memberNested n = .msonOneOf) (o : Out Body) :
    memberStep w R n o = msonStep w R .msonOneOf n o := by unfold memberStep; simp only [h]

theorem member_type (w : World) (R : Readers) {n : Node} (h1 : memberNested n ≠ .mson) (h2 : memberNested n ≠ .msonMixin)
    (h3 : memberNested n ≠ .msonOneOf) (o : Out Body) :
    memberStep w R n o = take (R.typeSection (memberNested n) (resolveBase n (memberNested n) o.node.base)) addSection n
      { o with node := { o.node with base := resolveBase n (memberNested n) o.node.base } } := by
  unfold memberStep
  generalize memberNested n = t at *
  cases t <;> first | rfl | contradiction

theorem settled_last {ss : List TypeSection} (h : Open ss) : ¬ (ss.getLast?.map DataStructure.Section.klass) = some .description := by
  intro h'
  cases hg : ss.getLast? with
  | none => rw [hg] at h'; cases h'
  | some s => rw [hg] at h'; exact h s hg (by simpa using h')

/-- The base type that the block settles on. -/
def base' (n : Node) (b : Base) : Base := resolveBase n (memberNested n) b

theorem mson_other (w : World) (R : Readers) {t : SectionType} {n : Node} (hh : n.kind ≠ .header) {ss : List TypeSection} (hs : Open ss)
    (b : Base) (types : Context) :
    msonStep w R t n ⟨⟨ss, b⟩, types, []⟩ =
      (let base := resolveBase n t b
      let o : Out Body := ⟨⟨openSection ss, base⟩, types, []⟩
      match t with
      | .msonMixin => take R.mixin (fun o m => if !sameBase base m.base then o.warn [.mixinMismatch] else addElement o (.mixin m)) n o
      | .msonOneOf =>
        if !isObject base then .ok (false, o.warn [.misplacedOneOf])
        else take R.oneOf (fun o es => addElement o (.oneOf es)) n o
      | _ =>
        if isValue base ∧ n.kind = .listItem then
          take R.value (fun o m => (addElement o (.value m.made)).warn (checked m .valueOfObjectItem)) n o
        else if isObject base ∧ n.kind = .listItem then
          take R.property (fun o m => (addElement o m.made).warn (checked m.toValueNode .valueOfObject)) n o
        else if isPrimitive base then .ok (false, o.warn [.membersOfPrimitive])
        else .ok (true, o.warn [.unrecognised])) := by
  unfold msonStep
  rw [if_neg hh, if_neg (settled_last hs)]
  rfl

/-! What each role does -/

theorem step_heading (w : World) (R : Readers) {n : Node} (h : IsHeading n) (hR : ∀ t b types, R.typeSection t b n types = .error .thrown)
    (o : Out Body) : memberStep w R n o = .error .thrown := by
  have ht : memberNested n = recognise.typeSectionType n := by
    have := (heading_iff h.1).mpr h
    unfold memberNested Recognise.first
    simp [this]
  have h1 : recognise.typeSectionType n ≠ .mson ∧ recognise.typeSectionType n ≠ .msonMixin ∧ recognise.typeSectionType n ≠ .msonOneOf := by
    rcases typeSection_values n with h | h | h | h <;> rw [h] <;> decide
  rw [member_type w R (by rw [ht]; exact h1.1) (by rw [ht]; exact h1.2.1) (by rw [ht]; exact h1.2.2)]
  simp [take, hR]

theorem member_header {n : Node} (h : n.kind = .header) (h' : ¬ IsHeading n) : memberNested n = .mson := by
  have h1 : recognise.typeSectionType n = .undefined := by
    by_cases hu : recognise.typeSectionType n = .undefined
    · exact hu
    · exact absurd ((heading_iff h).mp hu) h'
  have h2 := not_list_types (n := n) (by rw [h]; decide)
  simp [memberNested, Recognise.first, h1, h2]

theorem step_header (w : World) (R : Readers) {n : Node} (h : n.kind = .header) (h' : ¬ IsHeading n) (o : Out Body) :
    memberStep w R n o = .ok (false, o) := by
  rw [member_mson w R (member_header h h'), msonStep, if_pos h]

theorem settles_not_header {b b' : Base} {n : Node} (h : n.kind ≠ .header) : (n.kind = .header ∧ b' = b ∨ Settles b n b') ↔ b' = base' n b := by
  rw [settles_iff h]
  exact ⟨fun h1 => h1.resolve_left fun h2 => h h2.1, .inr⟩

section
variable {w : World} {n : Node} {ss ss' : List TypeSection} {b b' : Base} {types types' : Context} {ws : List Warning} {c : Bool}

theorem step_part {t : SectionType} (h : IsPart n t) :
    memberStep w (meaning w) n ⟨⟨ss, b⟩, types, []⟩ = .ok (c, ⟨⟨ss', b'⟩, types', ws⟩) ↔
      c = true ∧ b' = base' n b ∧ ∃ o, ReadPart w t b' n types o ∧ types' = o.types ∧ ws = o.warnings ∧
        ss' = if o.node.klass ≠ .undefined then ss ++ [o.node.made] else ss := by
  have hm := member_part h
  obtain ⟨h0, h1, h2, h3⟩ := part_ne h
  rw [member_type w _ (by rw [hm]; exact h1) (by rw [hm]; exact h2) (by rw [hm]; exact h3), take_iff]
  simp only [hm, base', readPart_iff, addSection]
  constructor
  · rintro ⟨rfl, q, hq, he⟩
    split at he
    · rename_i hk
      cases he
      exact ⟨rfl, rfl, q, hq, rfl, rfl, by rw [if_pos hk]⟩
    · rename_i hk
      cases he
      exact ⟨rfl, rfl, q, hq, rfl, rfl, by rw [if_neg hk]⟩
  · rintro ⟨rfl, rfl, q, hq, rfl, rfl, rfl⟩
    refine ⟨rfl, q, hq, ?_⟩
    by_cases hk : q.node.klass ≠ .undefined
    · rw [if_pos hk, if_pos hk]; rfl
    · rw [if_neg hk, if_neg hk]; rfl

theorem step_include (h : IsInclude n) (hn : Neat ss) (hs : Open ss) :
    memberStep w (meaning w) n ⟨⟨ss, b⟩, types, []⟩ = .ok (c, ⟨⟨ss', b'⟩, types', ws⟩) ↔
      c = true ∧ b' = base' n b ∧ ∃ o, ReadInclude w n types o ∧ types' = o.types ∧
        (Alike b' o.node.base ∧ ws = o.warnings ∧ ss' = joined ss [.mixin o.node] ∨
         ¬ Alike b' o.node.base ∧ ws = o.warnings ++ [.mixinMismatch] ∧ ss' = joined ss []) := by
  have hm := member_include h
  rw [member_mixin w _ hm, mson_other w _ (by rw [include_item h]; decide) hs, joined_nil hn]
  simp only [joined_one, base', hm, take_iff, readInclude_iff]
  constructor
  · rintro ⟨rfl, q, hq, he⟩
    split at he
    · rename_i hk
      cases he
      refine ⟨rfl, rfl, q, hq, rfl, .inr ⟨?_, rfl, rfl⟩⟩
      rw [← sameBase_iff]; simpa using hk
    · rename_i hk
      cases he
      refine ⟨rfl, rfl, q, hq, rfl, .inl ⟨?_, rfl, rfl⟩⟩
      rw [← sameBase_iff]; simpa using hk
  · rintro ⟨rfl, rfl, q, hq, rfl, ⟨hk, rfl, rfl⟩ | ⟨hk, rfl, rfl⟩⟩
    · refine ⟨rfl, q, hq, ?_⟩
      rw [← sameBase_iff] at hk
      rw [if_neg (by simp [hk])]; rfl
    · refine ⟨rfl, q, hq, ?_⟩
      rw [← sameBase_iff] at hk
      rw [if_pos (by simpa using hk)]; rfl

theorem step_oneOf (h : IsOneOf n) (hn : Neat ss) (hs : Open ss) :
    memberStep w (meaning w) n ⟨⟨ss, b⟩, types, []⟩ = .ok (c, ⟨⟨ss', b'⟩, types', ws⟩) ↔
      b' = base' n b ∧
      (c = true ∧ ObjectBase b' ∧ (∃ o, ReadOneOf w n types o ∧ types' = o.types ∧ ws = o.warnings ∧ ss' = joined ss [.oneOf o.node]) ∨
       c = false ∧ ¬ ObjectBase b' ∧ types' = types ∧ ws = [.misplacedOneOf] ∧ ss' = joined ss []) := by
  have hm := member_oneOf h
  rw [member_choice w _ hm, mson_other w _ (by rw [oneOf_item h]; decide) hs, joined_nil hn]
  simp only [joined_one, base', hm, readOneOf_iff]
  by_cases ho : isObject (resolveBase n .msonOneOf b) = true
  · simp only [ho, Bool.not_true, Bool.false_eq_true, if_false, take_iff]
    constructor
    · rintro ⟨rfl, q, hq, he⟩
      cases he
      exact ⟨rfl, .inl ⟨rfl, isObject_iff.mp ho, q, hq, rfl, rfl, rfl⟩⟩
    · rintro ⟨rfl, ⟨rfl, _, q, hq, rfl, rfl, rfl⟩ | ⟨_, hx, _⟩⟩
      · exact ⟨rfl, q, hq, rfl⟩
      · exact absurd (isObject_iff.mp ho) hx
  · have ho' : isObject (resolveBase n .msonOneOf b) = false := by simpa using ho
    simp only [ho', Bool.not_false, if_true]
    constructor
    · intro he
      cases he
      exact ⟨rfl, .inr ⟨rfl, fun hx => ho (isObject_iff.mpr hx), rfl, rfl, rfl⟩⟩
    · rintro ⟨rfl, ⟨_, hx, _⟩ | ⟨rfl, _, rfl, rfl, rfl⟩⟩
      · exact absurd (isObject_iff.mpr hx) ho
      · rfl

theorem step_plain (h : IsPlain n) (hn : Neat ss) (hs : Open ss) :
    memberStep w (meaning w) n ⟨⟨ss, b⟩, types, []⟩ = .ok (c, ⟨⟨ss', b'⟩, types', ws⟩) ↔
      b' = base' n b ∧
      (c = true ∧ ListBase b' ∧ (∃ o, ReadValue w n types o ∧ types' = o.types ∧ ws = o.warnings ++ checked o.node .valueOfObjectItem ∧
          ss' = joined ss [.value o.node.made]) ∨
       c = true ∧ ObjectBase b' ∧ (∃ o, ReadProperty w n types o ∧ types' = o.types ∧
          ws = o.warnings ++ checked o.node.toValueNode .valueOfObject ∧ ss' = joined ss [o.node.made]) ∨
       c = false ∧ ScalarBase b' ∧ types' = types ∧ ws = [.membersOfPrimitive] ∧ ss' = joined ss []) := by
  have hm := member_plain h
  rw [member_mson w _ hm, mson_other w _ (by rw [h.1]; decide) hs, joined_nil hn]
  have hb : base' n b = resolveBase n .mson b := by rw [base', hm]
  have hu : resolveBase n .mson b ≠ .undefined := by
    unfold resolveBase
    split
    · assumption
    · simp [h.1]
  simp only [joined_one, readValue_iff, readProperty_iff, hb, h.1, and_true]
  generalize resolveBase n .mson b = x at *
  rcases base_cases x with hx | hx | hx | hx
  · obtain ⟨n1, n2, _⟩ := object_not hx
    have e1 : ¬ isValue x = true := fun h => n1 (isValue_iff.mp h)
    rw [if_neg e1, if_pos (isObject_iff.mpr hx), take_iff]
    constructor
    · rintro ⟨rfl, q, hq, he⟩
      cases he
      exact ⟨rfl, .inr (.inl ⟨rfl, hx, q, hq, rfl, rfl, rfl⟩)⟩
    · rintro ⟨rfl, ⟨_, hx', _⟩ | ⟨rfl, _, q, hq, rfl, rfl, rfl⟩ | ⟨_, hx', _⟩⟩
      · exact absurd hx' n1
      · exact ⟨rfl, q, hq, rfl⟩
      · exact absurd hx' n2
  · obtain ⟨n1, n2, _⟩ := list_not hx
    rw [if_pos (isValue_iff.mpr hx), take_iff]
    constructor
    · rintro ⟨rfl, q, hq, he⟩
      cases he
      exact ⟨rfl, .inl ⟨rfl, hx, q, hq, rfl, rfl, rfl⟩⟩
    · rintro ⟨rfl, ⟨rfl, _, q, hq, rfl, rfl, rfl⟩ | ⟨_, hx', _⟩ | ⟨_, hx', _⟩⟩
      · exact ⟨rfl, q, hq, rfl⟩
      · exact absurd hx' n1
      · exact absurd hx' n2
  · obtain ⟨n1, n2, _⟩ := scalar_not hx
    have e1 : ¬ isValue x = true := fun h => n2 (isValue_iff.mp h)
    have e2 : ¬ isObject x = true := fun h => n1 (isObject_iff.mp h)
    rw [if_neg e1, if_neg e2, if_pos (isPrimitive_iff.mpr hx)]
    constructor
    · intro he
      cases he
      exact ⟨rfl, .inr (.inr ⟨rfl, hx, rfl, rfl, rfl⟩)⟩
    · rintro ⟨rfl, ⟨_, hx', _⟩ | ⟨_, hx', _⟩ | ⟨rfl, _, rfl, rfl, rfl⟩⟩
      · exact absurd hx' n2
      · exact absurd hx' n1
      · rfl
  · exact absurd hx hu

theorem step_text (h : IsText n) (hn : Neat ss) (hs : Open ss) :
    memberStep w (meaning w) n ⟨⟨ss, b⟩, types, []⟩ = .ok (c, ⟨⟨ss', b'⟩, types', ws⟩) ↔
      b' = base' n b ∧ types' = types ∧ ss' = joined ss [] ∧
      (c = true ∧ ¬ ScalarBase b' ∧ ws = [.unrecognised] ∨ c = false ∧ ScalarBase b' ∧ ws = [.membersOfPrimitive]) := by
  have hm := member_text h
  rw [member_mson w _ hm, mson_other w _ h.1 hs, joined_nil hn]
  simp only [base', hm, h.2, and_false, if_false]
  by_cases hp : isPrimitive (resolveBase n .mson b) = true
  · rw [if_pos hp]
    constructor
    · intro he
      cases he
      exact ⟨rfl, rfl, rfl, .inr ⟨rfl, isPrimitive_iff.mp hp, rfl⟩⟩
    · rintro ⟨rfl, rfl, rfl, ⟨_, hx, _⟩ | ⟨rfl, _, rfl⟩⟩
      · exact absurd (isPrimitive_iff.mp hp) hx
      · rfl
  · rw [if_neg hp]
    constructor
    · intro he
      cases he
      exact ⟨rfl, rfl, rfl, .inl ⟨rfl, fun hx => hp (isPrimitive_iff.mpr hx), rfl⟩⟩
    · rintro ⟨rfl, rfl, rfl, ⟨rfl, _, rfl⟩ | ⟨_, hx, _⟩⟩
      · rfl
      · exact absurd (isPrimitive_iff.mpr hx) hp

/-! ## Steps by what they add -/

theorem role_header_or (n : Node) : IsHeading n ∨ (n.kind = .header ∧ ¬ IsHeading n) ∨ n.kind ≠ .header := by
  by_cases h : n.kind = .header
  · by_cases h' : IsHeading n
    · exact .inl h'
    · exact .inr (.inl ⟨h, h'⟩)
  · exact .inr (.inr h)

theorem heading_part {t : SectionType} (h : n.kind = .header) : ¬ IsPart n t := fun hp => by
  have := part_item hp; rw [h] at this; cases this

theorem read_heading (w : World) (hh : n.kind = .header) (t : SectionType) (b : Base) (types : Context) :
    (meaning w).typeSection t b n types = .error .thrown := by
  rw [(meaning_layer w n).typeSection]
  simp [layer, itemResult, hh]

/-- Exactly one thing is said of a block. -/
theorem plain_not {n : Node} (h : IsPlain n) : ¬ IsInclude n ∧ ¬ IsOneOf n ∧ (∀ t, ¬ IsPart n t) ∧ ¬ IsText n ∧ n.kind ≠ .header :=
  ⟨h.2.2.2.2.2, h.2.2.2.2.1, fun t ht => plain_not_part h ⟨t, ht⟩, fun ht => ht.2 h.1, by rw [h.1]; decide⟩
theorem include_not {n : Node} (h : IsInclude n) : ¬ IsPlain n ∧ ¬ IsOneOf n ∧ (∀ t, ¬ IsPart n t) ∧ ¬ IsText n ∧ n.kind ≠ .header :=
  ⟨fun hp => hp.2.2.2.2.2 h, include_not_oneOf h, fun t ht => include_not_part h ⟨t, ht⟩, fun ht => ht.2 (include_item h),
    by rw [include_item h]; decide⟩
theorem oneOf_not {n : Node} (h : IsOneOf n) : ¬ IsPlain n ∧ ¬ IsInclude n ∧ (∀ t, ¬ IsPart n t) ∧ ¬ IsText n ∧ n.kind ≠ .header :=
  ⟨fun hp => hp.2.2.2.2.1 h, fun hi => include_not_oneOf hi h, fun t ht => oneOf_not_part h ⟨t, ht⟩, fun ht => ht.2 (oneOf_item h),
    by rw [oneOf_item h]; decide⟩
theorem part_not {n : Node} {t : SectionType} (h : IsPart n t) : ¬ IsPlain n ∧ ¬ IsInclude n ∧ ¬ IsOneOf n ∧ ¬ IsText n ∧ n.kind ≠ .header :=
  ⟨fun hp => plain_not_part hp ⟨_, h⟩, fun hp => include_not_part hp ⟨_, h⟩, fun hp => oneOf_not_part hp ⟨_, h⟩,
    fun hp => text_not_part hp ⟨_, h⟩, by rw [part_item h]; decide⟩
theorem text_not {n : Node} (h : IsText n) : ¬ IsPlain n ∧ ¬ IsInclude n ∧ ¬ IsOneOf n ∧ (∀ t, ¬ IsPart n t) ∧ n.kind ≠ .header :=
  ⟨fun hp => h.2 hp.1, fun hp => h.2 (include_item hp), fun hp => h.2 (oneOf_item hp), fun t ht => h.2 (part_item ht), h.1⟩

theorem step_true (hn : Neat ss) (hs : Open ss ∨ ∃ t, IsPart n t) :
    memberStep w (meaning w) n ⟨⟨ss, b⟩, types, []⟩ = .ok (true, ⟨⟨ss', b'⟩, types', ws⟩) ↔
      ∃ p, Settles b n b' ∧ Adds w b' n types p types' ws ∧ Joins ss p ss' := by
  cases role n with
  | header h =>
    have hno : ∀ {p}, ¬ Adds w b' n types p types' ws := by
      intro p ha
      cases ha with
      | property hp => exact (plain_not hp).2.2.2.2 h
      | value hp => exact (plain_not hp).2.2.2.2 h
      | include_ hp => exact (include_not hp).2.2.2.2 h
      | mismatch hp => exact (include_not hp).2.2.2.2 h
      | oneOf hp => exact (oneOf_not hp).2.2.2.2 h
      | part hp => exact (part_not hp).2.2.2.2 h
      | ignored hp => exact (part_not hp).2.2.2.2 h
      | text hp => exact hp.1 h
    constructor
    · intro hx
      by_cases hh : IsHeading n
      · rw [step_heading w _ hh (read_heading w h)] at hx; cases hx
      · rw [step_header w _ h hh] at hx; cases hx
    · rintro ⟨p, _, ha, _⟩; exact absurd ha hno
  | part h =>
    obtain ⟨n1, n2, n3, n4, n5⟩ := part_not h
    rw [step_part h]
    constructor
    · rintro ⟨_, rfl, o, ho, rfl, rfl, rfl⟩
      by_cases hk : o.node.klass ≠ .undefined
      · rw [if_pos hk]
        exact ⟨_, (settles_iff n5).mpr rfl, .part h ho hk, .section_⟩
      · rw [if_neg hk]
        exact ⟨_, (settles_iff n5).mpr rfl, .ignored h ho (by simpa using hk), .nothing⟩
    · rintro ⟨p, h1, ha, hj⟩
      cases ha with
      | property hp => exact absurd hp n1
      | value hp => exact absurd hp n1
      | include_ hp => exact absurd hp n2
      | mismatch hp => exact absurd hp n2
      | oneOf hp => exact absurd hp n3
      | text hp => exact absurd hp n4
      | part hp ho hk =>
        rw [part_unique hp h] at ho
        exact ⟨rfl, (settles_iff n5).mp h1, _, ho, rfl, rfl, by rw [if_pos hk]; exact joins_section.mp hj⟩
      | ignored hp ho hk =>
        rw [part_unique hp h] at ho
        exact ⟨rfl, (settles_iff n5).mp h1, _, ho, rfl, rfl, by rw [if_neg (by simp [hk])]; exact joins_nothing.mp hj⟩
  | include_ h =>
    obtain ⟨n1, n2, n3, n4, n5⟩ := include_not h
    have hs := hs.resolve_right fun ⟨t, ht⟩ => n3 t ht
    rw [step_include h hn hs]
    constructor
    · rintro ⟨_, rfl, o, ho, rfl, ⟨hk, rfl, rfl⟩ | ⟨hk, rfl, rfl⟩⟩
      · exact ⟨_, (settles_iff n5).mpr rfl, .include_ h ho hk, (joins_members hn).mpr rfl⟩
      · exact ⟨_, (settles_iff n5).mpr rfl, .mismatch h ho hk, (joins_members hn).mpr rfl⟩
    · rintro ⟨p, h1, ha, hj⟩
      cases ha with
      | property hp => exact absurd hp n1
      | value hp => exact absurd hp n1
      | oneOf hp => exact absurd hp n2
      | text hp => exact absurd hp n4
      | part hp => exact absurd hp (n3 _)
      | ignored hp => exact absurd hp (n3 _)
      | include_ _ ho hk => exact ⟨rfl, (settles_iff n5).mp h1, _, ho, rfl, .inl ⟨hk, rfl, (joins_members hn).mp hj⟩⟩
      | mismatch _ ho hk => exact ⟨rfl, (settles_iff n5).mp h1, _, ho, rfl, .inr ⟨hk, rfl, (joins_members hn).mp hj⟩⟩
  | oneOf h =>
    obtain ⟨n1, n2, n3, n4, n5⟩ := oneOf_not h
    have hs := hs.resolve_right fun ⟨t, ht⟩ => n3 t ht
    rw [step_oneOf h hn hs]
    constructor
    · rintro ⟨rfl, ⟨_, hk, o, ho, rfl, rfl, rfl⟩ | ⟨hc, _⟩⟩
      · exact ⟨_, (settles_iff n5).mpr rfl, .oneOf h hk ho, (joins_members hn).mpr rfl⟩
      · cases hc
    · rintro ⟨p, h1, ha, hj⟩
      cases ha with
      | property hp => exact absurd hp n1
      | value hp => exact absurd hp n1
      | include_ hp => exact absurd hp n2
      | mismatch hp => exact absurd hp n2
      | text hp => exact absurd hp n4
      | part hp => exact absurd hp (n3 _)
      | ignored hp => exact absurd hp (n3 _)
      | oneOf _ hk ho => exact ⟨(settles_iff n5).mp h1, .inl ⟨rfl, hk, _, ho, rfl, rfl, (joins_members hn).mp hj⟩⟩
  | plain h =>
    obtain ⟨n1, n2, n3, n4, n5⟩ := plain_not h
    have hs := hs.resolve_right fun ⟨t, ht⟩ => n3 t ht
    rw [step_plain h hn hs]
    constructor
    · rintro ⟨rfl, ⟨_, hk, o, ho, rfl, rfl, rfl⟩ | ⟨_, hk, o, ho, rfl, rfl, rfl⟩ | ⟨hc, _⟩⟩
      · exact ⟨_, (settles_iff n5).mpr rfl, .value h hk ho (doubt_iff.mpr rfl), (joins_members hn).mpr rfl⟩
      · exact ⟨_, (settles_iff n5).mpr rfl, .property h hk ho (doubt_iff.mpr rfl), (joins_members hn).mpr rfl⟩
      · cases hc
    · rintro ⟨p, h1, ha, hj⟩
      cases ha with
      | include_ hp => exact absurd hp n1
      | mismatch hp => exact absurd hp n1
      | oneOf hp => exact absurd hp n2
      | text hp => exact absurd hp n4
      | part hp => exact absurd hp (n3 _)
      | ignored hp => exact absurd hp (n3 _)
      | value _ hk ho hd =>
        rw [doubt_iff] at hd; subst hd
        exact ⟨(settles_iff n5).mp h1, .inl ⟨rfl, hk, _, ho, rfl, rfl, (joins_members hn).mp hj⟩⟩
      | property _ hk ho hd =>
        rw [doubt_iff] at hd; subst hd
        exact ⟨(settles_iff n5).mp h1, .inr (.inl ⟨rfl, hk, _, ho, rfl, rfl, (joins_members hn).mp hj⟩)⟩
  | text h =>
    obtain ⟨n1, n2, n3, n4, n5⟩ := text_not h
    have hs := hs.resolve_right fun ⟨t, ht⟩ => n4 t ht
    rw [step_text h hn hs]
    constructor
    · rintro ⟨rfl, rfl, rfl, ⟨_, hk, rfl⟩ | ⟨hc, _⟩⟩
      · exact ⟨_, (settles_iff n5).mpr rfl, .text h hk, (joins_members hn).mpr rfl⟩
      · cases hc
    · rintro ⟨p, h1, ha, hj⟩
      cases ha with
      | property hp => exact absurd hp n1
      | value hp => exact absurd hp n1
      | include_ hp => exact absurd hp n2
      | mismatch hp => exact absurd hp n2
      | oneOf hp => exact absurd hp n3
      | part hp => exact absurd hp (n4 _)
      | ignored hp => exact absurd hp (n4 _)
      | text _ hk => exact ⟨(settles_iff n5).mp h1, rfl, (joins_members hn).mp hj, .inl ⟨rfl, hk, rfl⟩⟩

theorem step_false (hn : Neat ss) (hs : Open ss ∨ ∃ t, IsPart n t) :
    memberStep w (meaning w) n ⟨⟨ss, b⟩, types, []⟩ = .ok (false, ⟨⟨ss', b'⟩, types', ws⟩) ↔
      types' = types ∧ ∃ p, (n.kind = .header ∧ b' = b ∨ Settles b n b') ∧ Halts b' n p ws ∧ Joins ss p ss' := by
  cases role n with
  | header h =>
    constructor
    · intro hx
      by_cases hh : IsHeading n
      · rw [step_heading w _ hh (read_heading w h)] at hx; cases hx
      · rw [step_header w _ h hh] at hx; cases hx
        exact ⟨rfl, _, .inl ⟨h, rfl⟩, .header h hh, .nothing⟩
    · rintro ⟨rfl, p, h1, ha, hj⟩
      cases ha with
      | header _ hh =>
        have hb : b' = b := by
          rcases h1 with h1 | h1
          · exact h1.2
          · cases h1 with
            | known => rfl
            | object hb h1 =>
              rcases h1 with h1 | h1 | h1 | h1
              · exact absurd h (plain_not h1).2.2.2.2
              · exact absurd h (include_not h1).2.2.2.2
              · exact absurd h (oneOf_not h1).2.2.2.2
              · exact absurd h (part_not (.properties h1)).2.2.2.2
            | sample hb h1 => exact absurd h (part_not (.sample h1)).2.2.2.2
            | items hb h1 => exact hb.symm
            | text hb h1 => exact hb.symm
        subst hb
        rw [step_header w _ h hh, joins_nothing.mp hj]
      | oneOf hp => exact absurd h (oneOf_not hp).2.2.2.2
      | scalar hp =>
        rcases hp with hp | hp
        · exact absurd h (plain_not hp).2.2.2.2
        · exact absurd h hp.1
  | part h =>
    obtain ⟨n1, n2, n3, n4, n5⟩ := part_not h
    rw [step_part h]
    constructor
    · rintro ⟨hc, _⟩; cases hc
    · rintro ⟨rfl, p, h1, ha, hj⟩
      cases ha with
      | header hh => exact absurd hh n5
      | oneOf hp => exact absurd hp n3
      | scalar hp => rcases hp with hp | hp <;> contradiction
  | include_ h =>
    obtain ⟨n1, n2, n3, n4, n5⟩ := include_not h
    have hs := hs.resolve_right fun ⟨t, ht⟩ => n3 t ht
    rw [step_include h hn hs]
    constructor
    · rintro ⟨hc, _⟩; cases hc
    · rintro ⟨rfl, p, h1, ha, hj⟩
      cases ha with
      | header hh => exact absurd hh n5
      | oneOf hp => exact absurd hp n2
      | scalar hp => rcases hp with hp | hp <;> contradiction
  | oneOf h =>
    obtain ⟨n1, n2, n3, n4, n5⟩ := oneOf_not h
    have hs := hs.resolve_right fun ⟨t, ht⟩ => n3 t ht
    rw [step_oneOf h hn hs]
    constructor
    · rintro ⟨rfl, ⟨hc, _⟩ | ⟨_, hk, rfl, rfl, rfl⟩⟩
      · cases hc
      · exact ⟨rfl, _, .inr ((settles_iff n5).mpr rfl), .oneOf h hk, (joins_members hn).mpr rfl⟩
    · rintro ⟨rfl, p, h1, ha, hj⟩
      cases ha with
      | header hh => exact absurd hh n5
      | oneOf _ hk => exact ⟨(settles_not_header n5).mp h1, .inr ⟨rfl, hk, rfl, rfl, (joins_members hn).mp hj⟩⟩
      | scalar hp => rcases hp with hp | hp <;> contradiction
  | plain h =>
    obtain ⟨n1, n2, n3, n4, n5⟩ := plain_not h
    have hs := hs.resolve_right fun ⟨t, ht⟩ => n3 t ht
    rw [step_plain h hn hs]
    constructor
    · rintro ⟨rfl, ⟨hc, _⟩ | ⟨hc, _⟩ | ⟨_, hk, rfl, rfl, rfl⟩⟩
      · cases hc
      · cases hc
      · exact ⟨rfl, _, .inr ((settles_iff n5).mpr rfl), .scalar (.inl h) hk, (joins_members hn).mpr rfl⟩
    · rintro ⟨rfl, p, h1, ha, hj⟩
      cases ha with
      | header hh => exact absurd hh n5
      | oneOf hp => exact absurd hp n2
      | scalar hp hk => exact ⟨(settles_not_header n5).mp h1, .inr (.inr ⟨rfl, hk, rfl, rfl, (joins_members hn).mp hj⟩)⟩
  | text h =>
    obtain ⟨n1, n2, n3, n4, n5⟩ := text_not h
    have hs := hs.resolve_right fun ⟨t, ht⟩ => n4 t ht
    rw [step_text h hn hs]
    constructor
    · rintro ⟨rfl, rfl, rfl, ⟨hc, _⟩ | ⟨_, hk, rfl⟩⟩
      · cases hc
      · exact ⟨rfl, _, .inr ((settles_iff n5).mpr rfl), .scalar (.inr h) hk, (joins_members hn).mpr rfl⟩
    · rintro ⟨rfl, p, h1, ha, hj⟩
      cases ha with
      | header hh => exact absurd hh n5
      | oneOf hp => exact absurd hp n3
      | scalar hp hk => exact ⟨(settles_not_header n5).mp h1, rfl, (joins_members hn).mp hj, .inr ⟨rfl, hk, rfl⟩⟩

end

end Verif.MsonParser
