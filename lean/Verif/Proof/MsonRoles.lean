import Verif.Props.C77
import Verif.Spec.MsonParser
import Verif.Proof.MsonMeaning

/-! # What list items are, by the functions that the parsers ask -/

namespace Verif.MsonParser
open Verif Verif.Text Verif.Regex Verif.Section Verif.Recognition Verif.Spec Verif.Spec.Recognition Verif.Spec.MsonParser Verif.Props
open Verif.Mson (Context)

theorem line_iff {n : Node} {P : Bytes → Prop} : (∃ s, Line n s ∧ P s) ↔ ∃ s, ItemLine n s ∧ P s := Iff.rfl

theorem include_iff {n : Node} : IsInclude n ↔ ∃ s, ItemBlock n s ∧ MixinLine s := by
  constructor
  · rintro ⟨text, s, h1, h2, h3⟩; exact ⟨s, ⟨text, h1, h2⟩, h3⟩
  · rintro ⟨s, ⟨text, h1, h2⟩, h3⟩; exact ⟨text, s, h1, h2, h3⟩

theorem mixinType_iff {n : Node} : recognise.mixinType n = .msonMixin ↔ IsInclude n := by
  rw [include_iff]; exact (C77_sections n).2.2.2.2.2.2

theorem oneOfType_iff {n : Node} : recognise.oneOfType n = .msonOneOf ↔ IsOneOf n := (C77_sections n).2.2.2.2.1

theorem mixinType_cases (n : Node) : recognise.mixinType n = .msonMixin ∨ recognise.mixinType n = .undefined := by
  unfold Recognise.mixinType Recognise.ofList Recognise.when
  split
  · split <;> simp
  · simp

theorem oneOfType_cases (n : Node) : recognise.oneOfType n = .msonOneOf ∨ recognise.oneOfType n = .undefined := by
  unfold Recognise.oneOfType Recognise.ofList Recognise.when
  split
  · split <;> simp
  · simp

theorem include_item {n : Node} (h : IsInclude n) : n.kind = .listItem := by
  obtain ⟨_, _, ⟨h, _⟩, _⟩ := h; exact h

theorem line_item {n : Node} {s : Bytes} (h : Line n s) : n.kind = .listItem := by
  obtain ⟨_, _, ⟨h, _⟩, _⟩ := h; exact h

theorem part_item {n : Node} {t : SectionType} (h : IsPart n t) : n.kind = .listItem := by
  cases h with
  | sample h => obtain ⟨s, h, _⟩ := h; exact line_item h
  | items h => obtain ⟨s, h, _⟩ := h; exact line_item h
  | properties h => obtain ⟨s, h, _⟩ := h; exact line_item h

theorem typeSection_values (n : Node) : recognise.typeSectionType n = .undefined ∨ recognise.typeSectionType n = .msonSampleDefault ∨
    recognise.typeSectionType n = .msonValueMembers ∨ recognise.typeSectionType n = .msonPropertyMembers := by
  have h : ∀ n, recognise.typeSection n = .undefined ∨ recognise.typeSection n = .msonSampleDefault ∨
      recognise.typeSection n = .msonValueMembers ∨ recognise.typeSection n = .msonPropertyMembers := by
    intro n
    show typeSectionOf n = .undefined ∨ typeSectionOf n = .msonSampleDefault ∨ typeSectionOf n = .msonValueMembers ∨
      typeSectionOf n = .msonPropertyMembers
    unfold typeSectionOf
    simp only
    repeat' split
    all_goals simp
  unfold Recognise.typeSectionType
  split
  · exact h n
  · simp

theorem part_iff {n : Node} (hl : n.kind = .listItem) {t : SectionType} (ht : t ≠ .undefined) :
    recognise.typeSectionType n = t ↔ IsPart n t := by
  obtain ⟨h1, h2, h3⟩ := C77_type_section n hl
  constructor
  · intro h
    rcases typeSection_values n with h' | h' | h' | h'
    · exact absurd (h.symm.trans h') ht
    · rw [h] at h'; subst h'; exact .sample (h1.mp h)
    · rw [h] at h'; subst h'; exact .items (h2.mp h)
    · rw [h] at h'; subst h'; exact .properties (h3.mp h)
  · intro h
    cases h with
    | sample h => exact h1.mpr h
    | items h => exact h2.mpr h
    | properties h => exact h3.mpr h

theorem part_some {n : Node} (hl : n.kind = .listItem) (hu : recognise.typeSectionType n ≠ .undefined) : ∃ t, IsPart n t :=
  ⟨_, (part_iff hl hu).mp rfl⟩

/-! ## No item is two of these -/

theorem cstr_append (a b : Bytes) : ∃ z, cstr (a ++ b) = cstr a ++ z := by
  unfold cstr
  induction a with
  | nil => exact ⟨_, rfl⟩
  | cons c a ih =>
    obtain ⟨z, hz⟩ := ih
    by_cases hc : c = 0
    · subst hc; exact ⟨[], by simp⟩
    · refine ⟨z, ?_⟩
      rw [List.cons_append, List.takeWhile_cons, List.takeWhile_cons]
      simp only [ne_eq, hc, not_false_eq_true, decide_true, if_true, List.cons_append, hz]

theorem trim_front {l r : Bytes} (h : trim l ≠ []) : ∃ z, trim (l ++ r) = trim l ++ z := by
  obtain ⟨a, b, he, ha, hb, h1, h2⟩ := trim_spec l
  obtain ⟨c, hc, hwc⟩ := trimEnd_spec (b ++ r)
  refine ⟨trimEnd (b ++ r), trim_unique ⟨a, c, ?_, ha, hwc, ?_, ?_⟩⟩
  · have e : l ++ r = a ++ (trim l ++ (b ++ r)) := by
      conv_lhs => rw [he]
      simp [List.append_assoc]
    rw [e]
    conv_lhs => rw [hc]
    simp [List.append_assoc]
  · intro x hx
    apply h1
    cases ht : trim l with
    | nil => exact absurd ht h
    | cons y t => rw [ht] at hx; exact hx
  · intro x hx
    cases hz : trimEnd (b ++ r) with
    | nil => rw [hz, List.append_nil] at hx; exact h2 x hx
    | cons y t =>
      refine trimEnd_last (s := b ++ r) ?_
      rw [hz] at hx ⊢
      rw [List.getLast?_append] at hx
      cases hg : (y :: t).getLast? with
      | none => simp at hg
      | some q => rw [hg] at hx; simpa using hx

theorem not_include {n : Node} {i : Item} (hi : i ≠ .mixin) (h : i.Form (cstr (frontLine n))) : ¬ MixinLine (cstr (trim (frontText n))) := by
  intro hm
  obtain ⟨a, k, y, he, ha, hk⟩ := form_starts h
  obtain ⟨a', k', y', he', ha', hk'⟩ := form_starts (i := .mixin) hm
  have hne : trim (getFirstLine (frontText n)).1 ≠ [] := by
    intro h0
    have : cstr (frontLine n) = [] := by
      show cstr (trim (getFirstLine (frontText n)).1) = []
      rw [h0]; rfl
    rw [this] at he
    have hk0 : k = [] := by
      have := congrArg List.length he
      simp at this
      exact List.eq_nil_of_length_eq_zero (by omega)
    subst hk0
    revert hk; cases i <;> decide
  have hf : ∃ r, frontText n = (getFirstLine (frontText n)).1 ++ r := by
    have := (firstLine_iff (text := frontText n) (s := (getFirstLine (frontText n)).1)).mpr rfl
    obtain ⟨_, h | ⟨r, h⟩⟩ := this
    · exact ⟨[], by simpa using h⟩
    · exact ⟨_, h⟩
  obtain ⟨r, hr⟩ := hf
  obtain ⟨z, hz⟩ := trim_front (r := r) hne
  rw [← hr] at hz
  obtain ⟨q, hq⟩ := cstr_append (trim (getFirstLine (frontText n)).1) z
  rw [← hz] at hq
  have he2 : cstr (trim (getFirstLine (frontText n)).1) = a ++ k ++ y := he
  rw [he2, List.append_assoc] at hq
  rw [hq] at he'
  exact hi (starts_exclusive he' ha ha' hk hk')

theorem line_form {n : Node} {i : Item} (h : ∃ s, Line n s ∧ i.Form s) : i.Form (cstr (frontLine n)) := (itemLine_iff.mp h).2

theorem include_only {n : Node} (h : IsInclude n) {i : Item} (hi : i ≠ .mixin) : ¬ ∃ s, Line n s ∧ i.Form s := fun hl =>
  not_include hi (line_form hl) (itemBlock_iff.mp (include_iff.mp h)).2

theorem line_only {n : Node} {i j : Item} (h : ∃ s, Line n s ∧ i.Form s) (hij : i ≠ j) : ¬ ∃ s, Line n s ∧ j.Form s := fun hl =>
  not_form (line_form h) hij (line_form hl)

/-! ## What the parsers ask -/

theorem not_list_types {n : Node} (h : n.kind ≠ .listItem) : recognise.mixinType n = .undefined ∧ recognise.oneOfType n = .undefined := by
  simp [Recognise.mixinType, Recognise.oneOfType, Recognise.ofList, h]

theorem text_types {n : Node} (h : IsText n) : recognise.typeSectionType n = .undefined := by
  simp [Recognise.typeSectionType, h.1, h.2]

theorem include_types {n : Node} (h : IsInclude n) : recognise.mixinType n = .msonMixin ∧ recognise.oneOfType n = .undefined ∧
    recognise.typeSectionType n = .undefined := by
  refine ⟨mixinType_iff.mpr h, ?_, ?_⟩
  · rcases oneOfType_cases n with h' | h'
    · exact absurd (oneOfType_iff.mp h') (include_only (i := .oneOf) h (by decide))
    · exact h'
  · by_cases hu : recognise.typeSectionType n = .undefined
    · exact hu
    · obtain ⟨t, hp⟩ := part_some (include_item h) hu
      cases hp with
      | sample hp => exact absurd hp (include_only (i := .sampleDefault) h (by decide))
      | items hp => exact absurd hp (include_only (i := .valueMembers) h (by decide))
      | properties hp => exact absurd hp (include_only (i := .propertyMembers) h (by decide))

theorem oneOf_types {n : Node} (h : IsOneOf n) : recognise.mixinType n = .undefined ∧ recognise.oneOfType n = .msonOneOf ∧
    recognise.typeSectionType n = .undefined := by
  refine ⟨?_, oneOfType_iff.mpr h, ?_⟩
  · rcases mixinType_cases n with h' | h'
    · exact absurd h (include_only (i := .oneOf) (mixinType_iff.mp h') (by decide))
    · exact h'
  · by_cases hu : recognise.typeSectionType n = .undefined
    · exact hu
    · have hl : n.kind = .listItem := by obtain ⟨s, h, _⟩ := h; exact line_item h
      obtain ⟨t, hp⟩ := part_some hl hu
      cases hp with
      | sample hp => exact absurd hp (line_only (i := .oneOf) (j := .sampleDefault) h (by decide))
      | items hp => exact absurd hp (line_only (i := .oneOf) (j := .valueMembers) h (by decide))
      | properties hp => exact absurd hp (line_only (i := .oneOf) (j := .propertyMembers) h (by decide))

theorem part_ne {n : Node} {t : SectionType} (h : IsPart n t) : t ≠ .undefined ∧ t ≠ .mson ∧ t ≠ .msonMixin ∧ t ≠ .msonOneOf := by
  cases h <;> decide

theorem part_types {n : Node} {t : SectionType} (h : IsPart n t) : recognise.mixinType n = .undefined ∧
    recognise.oneOfType n = .undefined ∧ recognise.typeSectionType n = t := by
  have h3 := (part_iff (part_item h) (part_ne h).1).mpr h
  refine ⟨?_, ?_, h3⟩
  · rcases mixinType_cases n with h' | h'
    · have := (include_types (mixinType_iff.mp h')).2.2
      exact absurd (h3.symm.trans this) (part_ne h).1
    · exact h'
  · rcases oneOfType_cases n with h' | h'
    · have := (oneOf_types (oneOfType_iff.mp h')).2.2
      exact absurd (h3.symm.trans this) (part_ne h).1
    · exact h'

theorem plain_types {n : Node} (h : IsPlain n) : recognise.mixinType n = .undefined ∧ recognise.oneOfType n = .undefined ∧
    recognise.typeSectionType n = .undefined := by
  obtain ⟨hl, h1, h2, h3, h4, h5⟩ := h
  refine ⟨(mixinType_cases n).resolve_left fun h => h5 (mixinType_iff.mp h), (oneOfType_cases n).resolve_left fun h => h4 (oneOfType_iff.mp h), ?_⟩
  by_cases hu : recognise.typeSectionType n = .undefined
  · exact hu
  · obtain ⟨t, hp⟩ := part_some hl hu
    cases hp with
    | sample hp => exact absurd hp h1
    | items hp => exact absurd hp h2
    | properties hp => exact absurd hp h3

/-- What a block is. -/
inductive Role (n : Node) : Prop
  | header (h : n.kind = .header)
  | text (h : IsText n)
  | plain (h : IsPlain n)
  | include_ (h : IsInclude n)
  | oneOf (h : IsOneOf n)
  | part {t : SectionType} (h : IsPart n t)

theorem role (n : Node) : Role n := by
  by_cases h0 : n.kind = .header
  · exact .header h0
  by_cases hl : n.kind = .listItem
  · by_cases h1 : IsSample n
    · exact .part (.sample h1)
    by_cases h2 : IsItems n
    · exact .part (.items h2)
    by_cases h3 : IsProperties n
    · exact .part (.properties h3)
    by_cases h4 : IsOneOf n
    · exact .oneOf h4
    by_cases h5 : IsInclude n
    · exact .include_ h5
    exact .plain ⟨hl, h1, h2, h3, h4, h5⟩
  · exact .text ⟨h0, hl⟩

theorem member_text {n : Node} (h : IsText n) : memberNested n = .mson := by
  simp [memberNested, Recognise.first, text_types h, not_list_types h.2]

theorem member_plain {n : Node} (h : IsPlain n) : memberNested n = .mson := by
  simp [memberNested, Recognise.first, plain_types h]

theorem member_include {n : Node} (h : IsInclude n) : memberNested n = .msonMixin := by
  simp [memberNested, Recognise.first, include_types h]

theorem member_oneOf {n : Node} (h : IsOneOf n) : memberNested n = .msonOneOf := by
  simp [memberNested, Recognise.first, oneOf_types h]

theorem member_part {n : Node} {t : SectionType} (h : IsPart n t) : memberNested n = t := by
  simp [memberNested, Recognise.first, part_types h, (part_ne h).1]

theorem nested_text {n : Node} (h : IsText n) : typeSectionNested n = .mson := by
  simp [typeSectionNested, Recognise.first, not_list_types h.2]

theorem nested_plain {n : Node} (h : IsPlain n) : typeSectionNested n = .mson := by
  simp [typeSectionNested, Recognise.first, plain_types h]

theorem nested_include {n : Node} (h : IsInclude n) : typeSectionNested n = .msonMixin := by
  simp [typeSectionNested, Recognise.first, include_types h]

theorem nested_oneOf {n : Node} (h : IsOneOf n) : typeSectionNested n = .msonOneOf := by
  simp [typeSectionNested, Recognise.first, oneOf_types h]

theorem nested_part {n : Node} {t : SectionType} (h : IsPart n t) : typeSectionNested n = .mson := by
  simp [typeSectionNested, Recognise.first, part_types h]

theorem choice_text {n : Node} (h : IsText n) : oneOfNested n = .undefined := by
  simp [oneOfNested, Recognise.first, text_types h, not_list_types h.2, h.2]

theorem choice_plain {n : Node} (h : IsPlain n) : oneOfNested n = .msonPropertyMember := by
  simp [oneOfNested, Recognise.first, plain_types h, h.1]

theorem choice_include {n : Node} (h : IsInclude n) : oneOfNested n = .msonMixin := by
  simp [oneOfNested, Recognise.first, include_types h]

theorem choice_oneOf {n : Node} (h : IsOneOf n) : oneOfNested n = .msonOneOf := by
  simp [oneOfNested, Recognise.first, oneOf_types h]

theorem choice_part {n : Node} {t : SectionType} (h : IsPart n t) : oneOfNested n = t := by
  simp [oneOfNested, Recognise.first, part_types h, (part_ne h).1]

/-! ## Items that are read -/

theorem readAs_iff {β : Type} {p : Parse (Out β)} {top : List SectionType} {new : β} {r : Reader β} {n : Node} {types : Context}
    (h : ∀ ns i ctx ws, ns[i]? = some n → p ns i ⟨top ++ ctx, new, types, ws⟩ = Payload.outcome i (top ++ ctx) (afterR ws (r n types)))
    {o : Out β} : ReadAs p top new n types o ↔ r n types = .ok o := by
  constructor
  · intro hr
    have h1 := h [n] 0 [] [] rfl
    rw [hr [n] 0 [] [] rfl] at h1
    cases hx : r n types with
    | error e => rw [hx] at h1; cases h1
    | ok o' =>
      rw [hx] at h1
      obtain ⟨a, t, ws⟩ := o
      obtain ⟨a', t', ws'⟩ := o'
      simp only [afterR, Payload.outcome, after, List.nil_append, Except.ok.injEq, Prod.mk.injEq, PD.mk.injEq, Out.mk.injEq] at h1
      simp [h1]
  · intro hr ns i ctx ws hi
    rw [h ns i ctx ws hi, hr]
    rfl

theorem fails_iff {β : Type} {p : Parse (Out β)} {top : List SectionType} {new : β} {r : Reader β} {n : Node} {types : Context}
    (h : ∀ ns i ctx ws, ns[i]? = some n → p ns i ⟨top ++ ctx, new, types, ws⟩ = Payload.outcome i (top ++ ctx) (afterR ws (r n types)))
    {e : Stop} : Fails p top new n types e ↔ r n types = .error e := by
  constructor
  · intro hr
    have h1 := h [n] 0 [] [] rfl
    rw [hr [n] 0 [] [] rfl] at h1
    cases hx : r n types with
    | error e' => rw [hx] at h1; cases h1; rfl
    | ok o' => rw [hx] at h1; cases h1
  · intro hr ns i ctx ws hi
    rw [h ns i ctx ws hi, hr]
    rfl

theorem mem_depth {ns : List Node} {i : Nat} {n : Node} (hi : ns[i]? = some n) : depth n ≤ depth.depths ns :=
  depth_mem (List.mem_of_getElem? hi)

theorem property_at (w : World) {n : Node} {types : Context} (ns : List Node) (i : Nat) (ctx : List SectionType) (ws : List Warning)
    (hi : ns[i]? = some n) : parseProperty w ns i ⟨[] ++ ctx, {}, types, ws⟩ =
      Payload.outcome i ([] ++ ctx) (afterR ws ((meaning w).property n types)) := by
  rw [← (readers_meaning w (mem_depth hi)).property]
  exact (agrees w _).property ctx ns i n types ws hi

theorem value_at (w : World) {n : Node} {types : Context} (ns : List Node) (i : Nat) (ctx : List SectionType) (ws : List Warning)
    (hi : ns[i]? = some n) : parseValue w ns i ⟨[] ++ ctx, {}, types, ws⟩ =
      Payload.outcome i ([] ++ ctx) (afterR ws ((meaning w).value n types)) := by
  rw [← (readers_meaning w (mem_depth hi)).value]
  exact (agrees w _).value ctx ns i n types ws hi

theorem include_at (w : World) {n : Node} {types : Context} (ns : List Node) (i : Nat) (ctx : List SectionType) (ws : List Warning)
    (hi : ns[i]? = some n) : parseMixin w ns i ⟨[] ++ ctx, {}, types, ws⟩ =
      Payload.outcome i ([] ++ ctx) (afterR ws ((meaning w).mixin n types)) := by
  rw [← (readers_meaning w (mem_depth hi)).mixin]
  exact (agrees w _).mixin ctx ns i n types ws hi

theorem oneOf_at (w : World) {n : Node} {types : Context} (ns : List Node) (i : Nat) (ctx : List SectionType) (ws : List Warning)
    (hi : ns[i]? = some n) : parseOneOf w ns i ⟨[] ++ ctx, [], types, ws⟩ =
      Payload.outcome i ([] ++ ctx) (afterR ws ((meaning w).oneOf n types)) := by
  rw [← (readers_meaning w (mem_depth hi)).oneOf]
  exact (agrees w _).oneOf ctx ns i n types ws hi

theorem part_at (w : World) (t : SectionType) (b : Mson.Base) {n : Node} {types : Context} (ns : List Node) (i : Nat)
    (ctx : List SectionType) (ws : List Warning) (hi : ns[i]? = some n) : parseTypeSection w ns i ⟨[t] ++ ctx, { base := b }, types, ws⟩ =
      Payload.outcome i ([t] ++ ctx) (afterR ws ((meaning w).typeSection t b n types)) := by
  rw [← (readers_meaning w (mem_depth hi)).typeSection]
  exact (agrees w _).typeSection t ctx b ns i n types ws hi

theorem readProperty_iff {w : World} {n : Node} {types : Context} {o : Out PropertyNode} :
    ReadProperty w n types o ↔ (meaning w).property n types = .ok o := readAs_iff (property_at w)
theorem readValue_iff {w : World} {n : Node} {types : Context} {o : Out ValueNode} :
    ReadValue w n types o ↔ (meaning w).value n types = .ok o := readAs_iff (value_at w)
theorem readInclude_iff {w : World} {n : Node} {types : Context} {o : Out Mson.TypeDef} :
    ReadInclude w n types o ↔ (meaning w).mixin n types = .ok o := readAs_iff (include_at w)
theorem readOneOf_iff {w : World} {n : Node} {types : Context} {o : Out (List DataStructure.Element)} :
    ReadOneOf w n types o ↔ (meaning w).oneOf n types = .ok o := readAs_iff (oneOf_at w)
theorem readPart_iff {w : World} {t : SectionType} {b : Mson.Base} {n : Node} {types : Context} {o : Out Draft} :
    ReadPart w t b n types o ↔ (meaning w).typeSection t b n types = .ok o := readAs_iff (part_at w t b)

end Verif.MsonParser
