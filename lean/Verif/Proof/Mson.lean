import Verif.Spec.Mson
import Verif.Proof.Signature
import Verif.Proof.NamedTypes
import Mathlib.Tactic.Tauto
/-! Proofs about types and values in MSON. -/
namespace Verif.Mson
open Verif Verif.Text Verif.Signature Verif.Spec Verif.Spec.Mson
open Verif.NamedTypes (BaseName TypeName)

/-! ## Values -/

theorem findSub_first {p : Bytes} : ∀ {s : Bytes} {e : Nat}, findSub p s = some e → ∀ a b, s = a ++ p ++ b → e ≤ a.length
  | [], e, h, a, b, hs => by
    unfold findSub at h
    split at h <;> simp_all
  | c :: s, e, h, a, b, hs => by
    unfold findSub at h
    split at h
    · cases h; simp
    · rename_i hp
      obtain ⟨e', he, rfl⟩ := Option.map_eq_some_iff.1 h
      cases a with
      | nil => exact absurd (List.isPrefixOf_iff_prefix.2 ⟨b, by simpa using hs.symm⟩) hp
      | cons x a =>
        have := findSub_first he a b (by simpa using (List.cons.inj hs).2)
        simp; omega

theorem replicate_unique {c : UInt8} {k l : Nat} {t d : Bytes} (h : List.replicate k c ++ t = List.replicate l c ++ d)
    (ht : t.head? ≠ some c) (hd : d.head? ≠ some c) : k = l ∧ t = d := by
  induction k generalizing l with
  | zero =>
    cases l with
    | zero => simpa using h
    | succ l => simp [List.replicate_succ] at h; rw [h] at ht; simp at ht
  | succ k ih =>
    cases l with
    | zero => simp [List.replicate_succ] at h; rw [← h] at hd; simp at hd
    | succ l =>
      have := ih (l := l) (by simpa [List.replicate_succ] using h)
      exact ⟨by omega, this.2⟩

theorem retrieve_strip (c : UInt8) (s : Bytes) :
    ((retrieveEscaped (c :: s) 0 true).1 ≠ [] → Enclosed c (c :: s) (retrieveEscaped (c :: s) 0 true).1) ∧
    ((retrieveEscaped (c :: s) 0 true).1 = [] → (∀ t, ¬ Enclosed c (c :: s) t) ∧ (retrieveEscaped (c :: s) 0 true).2 = c :: s) := by
  obtain ⟨l, d, hl, hs, hd, hr⟩ := retrieve_parts c s
  rw [hr]
  cases hf : findSub (List.replicate l c) d with
  | none =>
    refine ⟨by simp, fun _ => ⟨?_, rfl⟩⟩
    rintro t ⟨k, rest, hk, he, ht, h0, _⟩
    rw [hs, List.append_assoc, List.append_assoc] at he
    have htc : (t ++ (List.replicate k c ++ rest)).head? ≠ some c := by
      cases t with
      | nil => exact absurd rfl h0
      | cons x t => simpa using ht
    obtain ⟨rfl, rfl⟩ := replicate_unique he hd htc
    exact findSub_none hf ⟨t, rest, by simp⟩
  | some e =>
    obtain ⟨r, he, hle⟩ := findSub_some hf
    simp only [↓reduceIte]
    have hne : (d.take e) ≠ [] := by
      intro h0
      rw [h0] at he
      apply hd
      rw [he]
      obtain ⟨k, rfl⟩ : ∃ k, l = k + 1 := ⟨l - 1, by omega⟩
      simp [List.replicate_succ]
    refine ⟨fun _ => ⟨l, r, hl, ?_, ?_, hne, ?_⟩, fun h => absurd h hne⟩
    · rw [hs]; conv => lhs; rw [he]
      simp
    · intro hh
      apply hd
      cases d with
      | nil => simp at hh
      | cons x d => cases e <;> simp at hh ⊢; exact hh
    · intro a b hab
      have := findSub_first hf a b (by rw [← hab]; exact he)
      simp; omega

theorem checkVariable_iff (s : Bytes) : checkVariable s = true ↔ ∃ c, (c = asc '*' ∨ c = asc '_') ∧ Between c s := by
  unfold checkVariable Between
  cases h1 : s.head? with
  | none => simp
  | some a =>
    cases h2 : s.getLast? with
    | none => simp
    | some b =>
      simp only [Bool.and_eq_true, Bool.or_eq_true, beq_iff_eq, Option.some.injEq]
      constructor
      · rintro ⟨h, rfl⟩; exact ⟨a, h, rfl, rfl⟩
      · rintro ⟨c, h, rfl, rfl⟩; exact ⟨h, rfl⟩

theorem strip_raw (s : Bytes) (h : checkVariable s = false) : Raw s (stripBackticks s) false := by
  have hn : ∀ c, (c = asc '*' ∨ c = asc '_') → ¬ Between c s := fun c hc hb => by
    have := (checkVariable_iff s).2 ⟨c, hc, hb⟩
    simp [h] at this
  unfold stripBackticks
  split
  · rename_i h1
    refine .plain s (hn _ (.inl rfl)) (hn _ (.inr rfl)) ?_
    rintro ⟨h2, h3⟩
    exact h1.elim (fun x => x h2) fun x => x h3
  · rename_i h1
    simp only [not_or, Decidable.not_not] at h1
    cases s with
    | nil => simp at h1
    | cons c s =>
      have hcc : c = asc '`' := by simpa using h1.1
      subst hcc
      obtain ⟨r1, r2⟩ := retrieve_strip (asc '`') s
      simp only []
      split
      · rename_i he
        obtain ⟨h3, h4⟩ := r2 (by simpa using he)
        rw [h4]
        exact .unquoted _ h1 h3
      · rename_i he
        exact .quoted _ _ _ h1 (r1 (by simpa using he)) (trim_spec _)

theorem value_stands (s : Bytes) : Stands s (parseValue s) := by
  unfold parseValue
  cases hv : checkVariable s with
  | false =>
    simp only [Bool.false_eq_true, ↓reduceIte, List.isEmpty_nil]
    refine ⟨_, _, strip_raw s hv, ?_⟩
    split
    · rename_i h; exact .inl ⟨h, rfl⟩
    · rename_i h; exact .inr ⟨h, rfl⟩
  | true =>
    obtain ⟨c, hc, hb⟩ := (checkVariable_iff s).1 hv
    cases s with
    | nil => simp [Between] at hb
    | cons d s =>
      have : d = c := by simpa [Between] using hb.1
      subst this
      obtain ⟨r1, r2⟩ := retrieve_strip d s
      simp only [↓reduceIte]
      by_cases he : (retrieveEscaped (d :: s) 0 true).1 = []
      · obtain ⟨h3, h4⟩ := r2 he
        rw [he, h4]
        simp only [List.isEmpty_nil, ↓reduceIte]
        have hp : stripBackticks (d :: s) = d :: s := by
          apply strip_plain; left
          rcases hc with rfl | rfl <;> simp <;> decide
        rw [hp]
        refine ⟨_, _, .unclosed d _ hc hb h3, ?_⟩
        split
        · rename_i h; exact .inl ⟨h, rfl⟩
        · rename_i h; exact .inr ⟨h, rfl⟩
      · have he' : (retrieveEscaped (d :: s) 0 true).1.isEmpty = false := by simpa using he
        rw [he']
        simp only [Bool.false_eq_true, ↓reduceIte]
        refine ⟨_, _, .emphasis d _ _ hc hb (r1 he), ?_⟩
        split
        · rename_i h; exact .inl ⟨h, rfl⟩
        · rename_i h; exact .inr ⟨h, rfl⟩

theorem enclosed_unique {c : UInt8} {s t t' : Bytes} (h : Enclosed c s t) (h' : Enclosed c s t') : t = t' := by
  obtain ⟨k, r, hk, he, ht, h0, hm⟩ := h
  obtain ⟨k', r', hk', he', ht', h0', hm'⟩ := h'
  have hx : ∀ {t r : Bytes} {k}, t ≠ [] → t.head? ≠ some c → (t ++ (List.replicate k c ++ r)).head? ≠ some c := by
    intro t r k h0 ht
    cases t with
    | nil => exact absurd rfl h0
    | cons x t => simpa using ht
  have he2 := he.symm.trans he'
  simp only [List.append_assoc] at he2
  obtain ⟨rfl, h2⟩ := replicate_unique he2 (hx h0 ht) (hx h0' ht')
  simp only [List.append_assoc] at hm hm'
  have l1 := hm t' r' h2
  have l2 := hm' t r h2.symm
  exact (List.append_inj h2 (by omega)).1

theorem raw_unique {s t t' : Bytes} {b b' : Bool} (h : Raw s t b) (h' : Raw s t' b') : t = t' ∧ b = b' := by
  have hbb : ∀ {c c' s}, Between c s → Between c' s → c = c' := fun h h' => by
    have := h.1.symm.trans h'.1; simpa using this
  have e1 : asc '`' ≠ asc '*' := by decide
  have e2 : asc '`' ≠ asc '_' := by decide
  have hcq : ∀ {c s}, (c = asc '*' ∨ c = asc '_') → Between c s → ¬ Between (asc '`') s := fun hc h h' => by
    have := hbb h' h
    rcases hc with rfl | rfl
    · exact e1 this
    · exact e2 this
  have hcp : ∀ {c s}, (c = asc '*' ∨ c = asc '_') → Between c s → ¬ Between (asc '*') s → ¬ Between (asc '_') s → False := fun hc h h1 h2 => by
    rcases hc with rfl | rfl
    · exact h1 h
    · exact h2 h
  cases h with
  | emphasis c _ _ hc h he =>
    cases h' with
    | emphasis c' _ _ hc' h' he' => obtain rfl := hbb h h'; exact ⟨enclosed_unique he he', rfl⟩
    | unclosed c' _ hc' h' he' => obtain rfl := hbb h h'; exact absurd he (he' _)
    | quoted _ _ _ h' => exact absurd h' (hcq hc h)
    | unquoted _ h' => exact absurd h' (hcq hc h)
    | plain _ h1 h2 => exact (hcp hc h h1 h2).elim
  | unclosed c _ hc h he =>
    cases h' with
    | emphasis c' _ _ hc' h' he' => obtain rfl := hbb h h'; exact absurd he' (he _)
    | unclosed c' _ hc' h' he' => exact ⟨rfl, rfl⟩
    | quoted _ _ _ h' => exact absurd h' (hcq hc h)
    | unquoted _ h' => exact absurd h' (hcq hc h)
    | plain _ h1 h2 => exact (hcp hc h h1 h2).elim
  | quoted _ _ _ h he hv =>
    cases h' with
    | emphasis c' _ _ hc' h' he' => exact absurd h (hcq hc' h')
    | unclosed c' _ hc' h' he' => exact absurd h (hcq hc' h')
    | quoted _ _ _ h' he' hv' =>
      obtain rfl := enclosed_unique he he'
      exact ⟨(trim_unique hv).symm.trans (trim_unique hv'), rfl⟩
    | unquoted _ h' he' => exact absurd he (he' _)
    | plain _ h1 h2 h3 => exact absurd h h3
  | unquoted _ h he =>
    cases h' with
    | emphasis c' _ _ hc' h' he' => exact absurd h (hcq hc' h')
    | unclosed c' _ hc' h' he' => exact absurd h (hcq hc' h')
    | quoted _ _ _ h' he' hv' => exact absurd he' (he _)
    | unquoted _ h' he' => exact ⟨rfl, rfl⟩
    | plain _ h1 h2 h3 => exact absurd h h3
  | plain _ h1 h2 h3 =>
    cases h' with
    | emphasis c' _ _ hc' h' he' => exact (hcp hc' h' h1 h2).elim
    | unclosed c' _ hc' h' he' => exact (hcp hc' h' h1 h2).elim
    | quoted _ _ _ h' he' hv' => exact absurd h' h3
    | unquoted _ h' he' => exact absurd h' h3
    | plain _ _ _ _ => exact ⟨rfl, rfl⟩

theorem stands_iff (s : Bytes) (v : Value) : parseValue s = v ↔ Stands s v := by
  refine ⟨fun h => h ▸ value_stands s, fun h => ?_⟩
  obtain ⟨t, b, h1, h2⟩ := h
  obtain ⟨t', b', h1', h2'⟩ := value_stands s
  obtain ⟨rfl, rfl⟩ := raw_unique h1 h1'
  rcases h2 with ⟨h, rfl⟩ | ⟨h, rfl⟩ <;> rcases h2' with ⟨h', e⟩ | ⟨h', e⟩
  · exact e
  · exact absurd h h'
  · exact absurd h' h
  · exact e

/-! ## Names of types -/

theorem baseWord_inj {a b : BaseName} (h : baseWord a = baseWord b) : a = b := by
  cases a <;> cases b <;> first | rfl | (exact absurd h (by decide))

theorem typeName_names (s : Bytes) : Names s (parseTypeName s) := by
  unfold parseTypeName
  repeat' split
  all_goals first
    | exact .inl ⟨.boolean, by assumption, rfl⟩
    | exact .inl ⟨.string, by assumption, rfl⟩
    | exact .inl ⟨.number, by assumption, rfl⟩
    | exact .inl ⟨.array, by assumption, rfl⟩
    | exact .inl ⟨.enum, by assumption, rfl⟩
    | exact .inl ⟨.object, by assumption, rfl⟩
    | refine .inr ⟨fun b => by cases b <;> assumption, rfl, value_stands s⟩

theorem names_iff (s : Bytes) (ty : TypeName) : parseTypeName s = ty ↔ Names s ty := by
  refine ⟨fun h => h ▸ typeName_names s, fun h => ?_⟩
  rcases typeName_names s with ⟨b, h1, h2⟩ | ⟨h1, h2, h3⟩ <;> rcases h with ⟨b', h1', h2'⟩ | ⟨h1', h2', h3'⟩
  · obtain rfl := baseWord_inj (h1.symm.trans h1'); rw [h2, h2']
  · exact absurd h1 (h1' b)
  · exact absurd h1' (h1 b')
  · have := ((stands_iff _ _).2 h3).symm.trans ((stands_iff _ _).2 h3')
    obtain ⟨x, y, z⟩ := ty
    simp only at h2' this
    generalize parseTypeName s = q at *
    obtain ⟨x', y', z'⟩ := q
    simp_all

/-! ## Type specifications -/

/-- One character of the loop: the new state if the text before it is put away. -/
def next (c : UInt8) (buffer : Bytes) (st : Reading) : Option Reading :=
  if c = asc '[' ∧ ¬ st.parsedLink then some (st.opened buffer)
  else if c = asc ']' ∧ st.nested ∧ st.endLink then some (st.closed buffer)
  else if c = asc ',' ∧ st.nested ∧ ¬ st.endLink then some (st.separated buffer)
  else none

/-- The loop without trimming. -/
def run : Bytes → Bytes → Reading → Bytes × Reading
  | [], buffer, st => (buffer, st)
  | c :: s, buffer, st => match next c buffer st with
    | some st' => run s [] st'
    | none => run s (buffer ++ [c]) st

theorem next_trim {c : UInt8} {a b : Bytes} (st : Reading) (h : trim a = trim b) : next c a st = next c b st := by
  simp only [next, Reading.opened, Reading.closed, Reading.separated, Reading.push, h]

theorem next_white {c : UInt8} (hc : White c) (a : Bytes) (st : Reading) : next c a st = none := by
  unfold White at hc
  have h1 : c ≠ asc '[' := by rintro rfl; revert hc; decide
  have h2 : c ≠ asc ']' := by rintro rfl; revert hc; decide
  have h3 : c ≠ asc ',' := by rintro rfl; revert hc; decide
  simp [next, h1, h2, h3]

theorem specEnd_trim {a b : Bytes} (st : Reading) (h : trim a = trim b) : specEnd (a, st) = specEnd (b, st) := by
  simp only [specEnd, h]

theorem run_blank_left {a : Bytes} (ha : Blank a) : ∀ (s b : Bytes) (st : Reading),
    specEnd (run s (a ++ b) st) = specEnd (run s b st)
  | [], b, st => specEnd_trim st (trim_append_left ha)
  | c :: s, b, st => by
    simp only [run]
    rw [next_trim st (trim_append_left ha : trim (a ++ b) = trim b)]
    cases next c b st with
    | some st' => rfl
    | none => simp only []; rw [List.append_assoc]; exact run_blank_left ha s _ st

theorem run_blanks {a : Bytes} : ∀ (_ : Blank a) (s b : Bytes) (st : Reading), run (a ++ s) b st = run s (b ++ a) st := by
  induction a with
  | nil => intro _ s b st; simp
  | cons c a ih =>
    intro ha s b st
    simp only [List.cons_append, run]
    rw [next_white (ha c (by simp))]
    simp only []
    rw [ih (fun x hx => ha x (by simp [hx]))]
    simp

theorem run_blank_right {a : Bytes} (ha : Blank a) : ∀ (s b : Bytes) (st : Reading),
    specEnd (run (s ++ a) b st) = specEnd (run s b st)
  | [], b, st => by
    have := run_blanks ha [] b st
    rw [List.append_nil] at this
    rw [List.nil_append, this]
    exact specEnd_trim st (trim_append_right ha)
  | c :: s, b, st => by
    simp only [List.cons_append, run]
    cases next c b st with
    | some st' => exact run_blank_right ha s _ _
    | none => exact run_blank_right ha s _ _

theorem run_trim (s : Bytes) (st : Reading) : specEnd (run (trim s) [] st) = specEnd (run s [] st) := by
  obtain ⟨a, b, h1, h2, h3, h4⟩ := trim_spec s
  conv => rhs; rw [h1]
  rw [run_blank_right h3, run_blanks h2, List.nil_append]
  have := run_blank_left h2 (trim s) [] st
  rw [List.append_nil] at this
  exact this.symm

theorem specLoop_run (s : Bytes) (i : Nat) (buffer : Bytes) (st : Reading) :
    specEnd (specLoop s i buffer st) = specEnd (run (s.drop i) buffer st) := by
  fun_induction specLoop s i buffer st with
  | case1 s i buffer st h =>
    have : s.length ≤ i := List.getElem?_eq_none_iff.1 h
    rw [List.drop_eq_nil_of_le this]; rfl
  | case2 s i buffer st c h hc ih =>
    rw [getElem?_drop h, ih, List.drop_zero, run_trim]
    simp only [run, next]
    rw [if_pos hc]
  | case3 s i buffer st c h h1 hc ih =>
    rw [getElem?_drop h, ih, List.drop_zero, run_trim]
    simp only [run, next]
    rw [if_neg h1, if_pos hc]
  | case4 s i buffer st c h h1 h2 hc ih =>
    rw [getElem?_drop h, ih, List.drop_zero, run_trim]
    simp only [run, next]
    rw [if_neg h1, if_neg h2, if_pos hc]
  | case5 s i buffer st c h h1 h2 hc ih =>
    rw [getElem?_drop h, ih]
    simp only [run, next]
    rw [if_neg h1, if_neg h2, if_neg hc]

theorem run_plain {t : Bytes} {st : Reading} (h : ∀ c ∈ t, ∀ b, next c b st = none) : ∀ (s b : Bytes),
    run (t ++ s) b st = run s (b ++ t) st := by
  induction t with
  | nil => intro s b; simp
  | cons c t ih =>
    intro s b
    simp only [List.cons_append, run]
    rw [h c (by simp)]
    simp only []
    rw [ih (fun x hx => h x (by simp [hx]))]
    simp

/-- In the list of nested types, before a name or link. -/
def atName (spec : TypeSpec) : Reading := { nested := true, spec := spec }
/-- In the text of a link. -/
def inLink (spec : TypeSpec) : Reading := { nested := true, endLink := true, spec := spec }
/-- After a link. -/
def pastLink (spec : TypeSpec) : Reading := { nested := true, parsedLink := true, spec := spec }

theorem none_start {c : UInt8} (h : c ≠ asc '[') (b : Bytes) : next c b {} = none := by simp [next, h]
theorem none_atName {c : UInt8} (h : c ≠ asc '[') (h' : c ≠ asc ',') (b : Bytes) (sp : TypeSpec) : next c b (atName sp) = none := by
  simp [next, atName, h, h']
theorem none_inLink {c : UInt8} (h : c ≠ asc '[') (h' : c ≠ asc ']') (b : Bytes) (sp : TypeSpec) : next c b (inLink sp) = none := by
  simp [next, inLink, h, h']
theorem none_pastLink {c : UInt8} (h' : c ≠ asc ',') (b : Bytes) (sp : TypeSpec) : next c b (pastLink sp) = none := by
  simp [next, pastLink, h']

theorem open_start (b : Bytes) : next (asc '[') b {} =
    some (atName (if (trim b).isEmpty then {} else ⟨parseTypeName (trim b), []⟩)) := by
  simp [next, Reading.opened, Reading.closed, Reading.separated, atName]
theorem open_atName (b : Bytes) (sp : TypeSpec) : next (asc '[') b (atName sp) = some (inLink sp) := by
  simp [next, Reading.opened, Reading.closed, Reading.separated, atName, inLink]
theorem open_inLink (b : Bytes) (sp : TypeSpec) : next (asc '[') b (inLink sp) = some (inLink sp) := by
  simp [next, Reading.opened, Reading.closed, Reading.separated, inLink]
theorem comma_atName (b : Bytes) (sp : TypeSpec) : next (asc ',') b (atName sp) = some (atName ((atName sp).push b)) := by
  have h1 : asc ',' ≠ asc '[' := by decide
  have h2 : asc ',' ≠ asc ']' := by decide
  simp [next, Reading.opened, Reading.closed, Reading.separated, atName, h1, h2]
theorem comma_pastLink (b : Bytes) (sp : TypeSpec) : next (asc ',') b (pastLink sp) = some (atName sp) := by
  have h2 : asc ',' ≠ asc ']' := by decide
  simp [next, Reading.opened, Reading.closed, Reading.separated, pastLink, atName, h2]
theorem close_inLink (b : Bytes) (sp : TypeSpec) : next (asc ']') b (inLink sp) = some (pastLink ((inLink sp).push b)) := by
  have h2 : asc ']' ≠ asc '[' := by decide
  simp [next, Reading.opened, Reading.closed, Reading.separated, pastLink, inLink, h2]

theorem trim_blank {s : Bytes} : trim s = [] ↔ Blank s := by
  constructor
  · intro h
    obtain ⟨a, b, h1, h2, h3, _⟩ := trim_iff.1 h
    rw [h1]
    intro c hc
    simp at hc
    exact hc.elim (h2 c) (h3 c)
  · intro h; exact trim_unique ⟨s, [], by simp, h, by simp [Blank], by simp [Bare]⟩

/-- The types of one part, as the model reads them. -/
def part (s : Bytes) : List TypeName := if (trim s).isEmpty then [] else [parseTypeName (trim s)]

theorem part_iff (s : Bytes) (tys : List TypeName) : part s = tys ↔ Part s tys := by
  unfold part
  constructor
  · rintro rfl
    split
    · rename_i h; exact .blank s (trim_blank.1 (by simpa using h))
    · rename_i h; exact .name s _ _ (trim_spec s) (by simpa using h) (typeName_names _)
  · intro h
    cases h with
    | blank h => rw [trim_blank.2 h]; rfl
    | name t ty h h0 hty =>
      rw [trim_unique h, (names_iff _ _).2 hty]
      simp [h0]

theorem push_part (st : Reading) (s : Bytes) : st.push s = { st.spec with nested := st.spec.nested ++ part s } := by
  unfold Reading.push part
  split <;> simp

/-- Reading of what opens a link. -/
theorem run_opens {s : Bytes} (h : Opens s) (r : Bytes) (sp : TypeSpec) :
    run (s ++ r) [] (atName sp) = run r [] (inLink sp) := by
  obtain ⟨pre, mid, rfl, h1, h2, h3, h4⟩ := h
  rw [List.append_assoc, run_plain (fun c hc b => none_atName (fun e => h1 (e ▸ hc)) (fun e => h2 (e ▸ hc)) b sp)]
  simp only [List.cons_append, run, open_atName]
  -- the loop in the link text
  have key : ∀ (m : Bytes), asc ']' ∉ m → ∀ b, (m = [] ∧ b = [] ∨ m.getLast? = some (asc '[')) →
      run (m ++ r) b (inLink sp) = run r [] (inLink sp) := by
    intro m
    induction m with
    | nil => rintro _ b (⟨_, rfl⟩ | h); · rfl
             · simp at h
    | cons c m ih =>
      intro hm b hb
      have hl : (c :: m).getLast? = some (asc '[') := by
        rcases hb with ⟨h, _⟩ | h
        · simp at h
        · exact h
      have hm' : asc ']' ∉ m := fun h => hm (by simp [h])
      simp only [List.cons_append, run]
      by_cases hc : c = asc '['
      · subst hc
        rw [open_inLink]
        simp only []
        apply ih hm'
        cases m with
        | nil => exact .inl ⟨rfl, rfl⟩
        | cons d m => right; simpa using hl
      · rw [none_inLink hc (fun e => hm (by simp [e]))]
        simp only []
        apply ih hm'
        right
        cases m with
        | nil => simp at hl; exact absurd hl hc
        | cons d m => simpa using hl
  apply key mid h3
  rcases h4 with rfl | h4
  · exact .inl ⟨rfl, rfl⟩
  · exact .inr h4

theorem last_read {s : Bytes} {tys : List TypeName} (h : Last s tys) (sp : TypeSpec) :
    specEnd (run s [] (atName sp)) = { sp with nested := sp.nested ++ tys } := by
  have plain : ∀ {s : Bytes}, asc '[' ∉ s → asc ',' ∉ s → run s [] (atName sp) = (s, atName sp) := by
    intro s h1 h2
    have := run_plain (t := s) (fun c hc b => none_atName (fun e => h1 (e ▸ hc)) (fun e => h2 (e ▸ hc)) b sp) [] []
    simpa [run] using this
  cases h with
  | blank _ h =>
    have hw : ∀ x, ¬ White x → x ∉ s := fun x hx hm => hx (h x hm)
    rw [plain (hw _ (by unfold White; decide)) (hw _ (by unfold White; decide))]
    simp [specEnd, trim_blank.2 h, atName]
  | closed _ t u ty h1 h2 h3 h4 h5 =>
    rw [plain h1 h2]
    simp only [specEnd, trim_unique h3]
    simp [atName, trim_unique h4, (names_iff _ _).2 h5]
  | unclosed _ t ty h1 h2 h3 h4 h5 h6 =>
    rw [plain h1 h2]
    simp only [specEnd, trim_unique h3]
    simp [atName, h4, h5, trim_bare (trim_iff.1 (trim_unique h3) |>.choose_spec.choose_spec.2.2.2), (names_iff _ _).2 h6]
  | link o text after tys ho h h' ha hp =>
    rw [List.append_assoc, run_opens ho, run_plain (fun c hc b => none_inLink (fun e => h (e ▸ hc)) (fun e => h' (e ▸ hc)) b sp)]
    simp only [run, List.nil_append, close_inLink]
    have := run_plain (t := after) (fun c hc b => none_pastLink (fun e => ha (e ▸ hc)) b ((inLink sp).push text)) [] []
    rw [List.append_nil] at this
    rw [this]
    simp only [run, specEnd, pastLink, push_part, (part_iff _ _).2 hp]
    simp [inLink]
  | unclosedLink o text tys ho h h' hp =>
    rw [run_opens ho]
    have := run_plain (t := text) (fun c hc b => none_inLink (fun e => h (e ▸ hc)) (fun e => h' (e ▸ hc)) b sp) [] []
    rw [List.append_nil] at this
    rw [this]
    simp only [run, List.nil_append, specEnd, inLink, Bool.or_false, Bool.true_and]
    have hl : (trim text).getLast? ≠ some (asc ']') := by
      intro hl
      obtain ⟨a, b, e, _⟩ := trim_spec text
      apply h'
      rw [e]
      have := List.mem_of_getLast? hl
      simp [this]
    simp only [hl, decide_false, Bool.false_eq_true, if_false, if_true, trim_trim]
    rw [← (part_iff _ _).2 hp]
    unfold part
    split <;> simp

theorem nested_read {s : Bytes} {tys : List TypeName} (h : Nested s tys) : ∀ sp : TypeSpec,
    specEnd (run s [] (atName sp)) = { sp with nested := sp.nested ++ tys } := by
  induction h with
  | last s tys h => exact last_read h
  | name s rest tys tys' hs hs' hp hr ih =>
    intro sp
    rw [run_plain (fun c hc b => none_atName (fun e => hs (e ▸ hc)) (fun e => hs' (e ▸ hc)) b sp)]
    simp only [run, List.nil_append, comma_atName, push_part, (part_iff _ _).2 hp]
    rw [ih]
    simp [atName]
  | link o text after rest tys tys' ho h h' ha hp hr ih =>
    intro sp
    rw [List.append_assoc, List.append_assoc, run_opens ho, run_plain (fun c hc b => none_inLink (fun e => h (e ▸ hc)) (fun e => h' (e ▸ hc)) b sp)]
    simp only [List.cons_append, run, List.nil_append, close_inLink]
    rw [run_plain (fun c hc b => none_pastLink (fun e => ha (e ▸ hc)) b _)]
    simp only [run, comma_pastLink, push_part, (part_iff _ _).2 hp]
    rw [ih]
    simp [inLink]

theorem specifies_read {s : Bytes} {sp : TypeSpec} (h : Specifies s sp) : specEnd (run s [] {}) = sp := by
  cases h with
  | name _ tys h hp =>
    have := run_plain (t := s) (fun c hc b => none_start (fun e => h (e ▸ hc)) b) [] []
    rw [List.append_nil] at this
    rw [this, ← (part_iff _ _).2 hp]
    simp only [run, List.nil_append, specEnd, part, noType]
    by_cases ht : trim s = [] <;> simp [trim_trim, ht]
  | nested s rest tys tys' h hp hr =>
    rw [run_plain (fun c hc b => none_start (fun e => h (e ▸ hc)) b)]
    simp only [run, List.nil_append, open_start]
    rw [nested_read hr, ← (part_iff _ _).2 hp]
    unfold part noType
    split <;> simp

/-! ### Every text specifies something -/

theorem split_first (p : UInt8 → Bool) (s : Bytes) : (∀ c ∈ s, p c = false) ∨ ∃ a c b, s = a ++ c :: b ∧ (∀ x ∈ a, p x = false) ∧ p c = true := by
  induction s with
  | nil => left; simp
  | cons d s ih =>
    cases hd : p d with
    | true => exact .inr ⟨[], d, s, rfl, by simp, hd⟩
    | false =>
      rcases ih with h | ⟨a, c, b, rfl, h1, h2⟩
      · left; intro c hc; rcases List.mem_cons.1 hc with rfl | hc
        · exact hd
        · exact h c hc
      · refine .inr ⟨d :: a, c, b, rfl, ?_, h2⟩
        intro x hx; rcases List.mem_cons.1 hx with rfl | hx
        · exact hd
        · exact h1 x hx

theorem split_char (d : UInt8) (s : Bytes) : d ∉ s ∨ ∃ a b, s = a ++ d :: b ∧ d ∉ a := by
  rcases split_first (fun c => c == d) s with h | ⟨a, c, b, rfl, h1, h2⟩
  · left; intro hd; simpa using h d hd
  · right
    have : c = d := by simpa using h2
    subst this
    exact ⟨a, b, rfl, fun hd => by simpa using h1 c hd⟩

theorem split_last (d : UInt8) (s : Bytes) : d ∉ s ∨ ∃ a b, s = a ++ d :: b ∧ d ∉ b := by
  rcases split_char d s.reverse with h | ⟨a, b, h, h1⟩
  · left; simpa using h
  · refine .inr ⟨b.reverse, a.reverse, ?_, by simpa using h1⟩
    have := congrArg List.reverse h
    simpa using this

theorem part_exists (s : Bytes) : ∃ tys, Part s tys := ⟨_, (part_iff s _).1 rfl⟩

theorem nested_exists (n : Nat) : ∀ s : Bytes, s.length < n → ∃ tys, Nested s tys := by
  induction n with
  | zero => intro s h; simp at h
  | succ n ih =>
    intro s hn
    rcases split_first (fun c => c == asc '[' || c == asc ',') s with h | ⟨a, c, b, rfl, h1, h2⟩
    · have hs1 : asc '[' ∉ s := fun hm => by simpa using h _ hm
      have hs2 : asc ',' ∉ s := fun hm => by simpa using h _ hm
      by_cases h0 : trim s = []
      · exact ⟨_, .last _ _ (.blank s (trim_blank.1 h0))⟩
      · by_cases hl : (trim s).getLast? = some (asc ']')
        · have e : trim s = (trim s).dropLast ++ [asc ']'] := by
            have h3 := List.dropLast_concat_getLast h0
            rw [List.getLast?_eq_some_getLast h0] at hl
            rw [Option.some.inj hl] at h3
            exact h3.symm
          exact ⟨_, .last _ _ (.closed s _ _ _ hs1 hs2 (e ▸ trim_spec s) (trim_spec _) (typeName_names _))⟩
        · exact ⟨_, .last _ _ (.unclosed s _ _ hs1 hs2 (trim_spec s) h0 hl (typeName_names _))⟩
    · have ha1 : asc '[' ∉ a := fun hm => by simpa using h1 _ hm
      have ha2 : asc ',' ∉ a := fun hm => by simpa using h1 _ hm
      simp only [List.length_append, List.length_cons] at hn
      have hc : c = asc '[' ∨ c = asc ',' := by simpa using h2
      rcases hc with rfl | rfl
      · -- a link
        have hopen : ∀ mid : Bytes, asc ']' ∉ mid → (mid = [] ∨ mid.getLast? = some (asc '[')) → Opens (a ++ asc '[' :: mid) :=
          fun mid h h' => ⟨a, mid, rfl, ha1, ha2, h, h'⟩
        have hsplit : ∀ m : Bytes, asc ']' ∉ m → ∃ o t, a ++ asc '[' :: m = o ++ t ∧ Opens o ∧ asc '[' ∉ t ∧ asc ']' ∉ t := by
          intro m hm
          rcases split_last (asc '[') m with h | ⟨x, y, rfl, h⟩
          · exact ⟨a ++ [asc '['], m, by simp, hopen [] (by simp) (.inl rfl), h, hm⟩
          · refine ⟨a ++ asc '[' :: (x ++ [asc '[']), y, by simp, hopen _ ?_ (.inr (by simp)), h, fun h => hm (by simp [h])⟩
            intro h
            simp at h
            rcases h with h | h
            · exact hm (by simp [h])
            · revert h; decide
        rcases split_char (asc ']') b with h | ⟨m, r, rfl, hm⟩
        · obtain ⟨o, t, e, ho, ht, ht'⟩ := hsplit b h
          obtain ⟨tys, hp⟩ := part_exists t
          rw [e]
          exact ⟨_, .last _ _ (.unclosedLink o t tys ho ht ht' hp)⟩
        · obtain ⟨o, t, e, ho, ht, ht'⟩ := hsplit m hm
          obtain ⟨tys, hp⟩ := part_exists t
          have e' : a ++ asc '[' :: (m ++ asc ']' :: r) = o ++ t ++ asc ']' :: r := by
            rw [← e]; simp
          rw [e']
          rcases split_char (asc ',') r with h | ⟨x, y, rfl, hx⟩
          · exact ⟨_, .last _ _ (.link o t r tys ho ht ht' h hp)⟩
          · obtain ⟨tys', hr⟩ := ih y (by simp at hn; omega)
            have := Nested.link o t x y tys tys' ho ht ht' hx hp hr
            exact ⟨_, by simpa using this⟩
      · obtain ⟨tys, hp⟩ := part_exists a
        obtain ⟨tys', hr⟩ := ih b (by omega)
        exact ⟨_, .name a b tys tys' ha1 ha2 hp hr⟩

theorem specifies_exists (s : Bytes) : ∃ sp, Specifies s sp := by
  rcases split_char (asc '[') s with h | ⟨a, b, rfl, h⟩
  · obtain ⟨tys, hp⟩ := part_exists s
    exact ⟨_, .name s tys h hp⟩
  · obtain ⟨tys, hp⟩ := part_exists a
    obtain ⟨tys', hr⟩ := nested_exists _ b (Nat.lt_succ_self _)
    exact ⟨_, .nested a b tys tys' h hp hr⟩

theorem specifies_iff (s : Bytes) (sp : TypeSpec) : specEnd (run s [] {}) = sp ↔ Specifies s sp := by
  refine ⟨?_, specifies_read⟩
  rintro rfl
  obtain ⟨sp, h⟩ := specifies_exists s
  rw [specifies_read h]; exact h

theorem spec_run (s : Bytes) : parseTypeSpecification s = specEnd (run (stripMarkdownLink s) [] {}) := by
  unfold parseTypeSpecification
  rw [specLoop_run, List.drop_zero]

/-! ### Links -/

theorem isBlank_iff {c : UInt8} : isBlank c = true ↔ c = asc ' ' ∨ c = asc '\t' := by simp [isBlank]

theorem isInner_iff {c : UInt8} : isInner c = true ↔ c ∉ str "[]()" := by
  have : str "[]()" = [asc '[', asc ']', asc '(', asc ')'] := by decide
  rw [this]
  simp [isInner]
  tauto

theorem drop_take_stop {p : UInt8 → Bool} {a b : Bytes} {c : UInt8} (ha : ∀ x ∈ a, p x = true) (hc : p c = false) :
    (a ++ c :: b).dropWhile p = c :: b ∧ (a ++ c :: b).takeWhile p = a := by
  induction a with
  | nil => simp [hc]
  | cons d a ih =>
    have hd := ha d (by simp)
    have := ih (fun x hx => ha x (by simp [hx]))
    simp [hd, this]

theorem takeWhile_noNul {s : Bytes} (h : (0 : UInt8) ∉ s) : s.takeWhile (· ≠ 0) = s :=
  takeWhile_all fun c hc => by simp; rintro rfl; exact h hc

theorem link_read {s t : Bytes} (h0 : (0 : UInt8) ∉ s) (h : IsLink s t) : linkText s = t := by
  have n1 : isBlank (asc ']') = false := by decide
  have n2 : isBlank (asc ')') = false := by decide
  have n3 : isInner (asc '[') = false := by decide
  have n4 : isInner (asc '(') = false := by decide
  obtain ⟨b, u, b', hb, hb', hu, h⟩ := h
  have hbr : ∀ x ∈ b.reverse, isBlank x = true := fun x hx => isBlank_iff.2 (hb x (by simpa using hx))
  have hbr' : ∀ x ∈ b'.reverse, isBlank x = true := fun x hx => isBlank_iff.2 (hb' x (by simpa using hx))
  have hur : ∀ x ∈ u.reverse, isInner x = true := fun x hx => isInner_iff.2 (hu x (by simpa using hx))
  unfold linkText
  rw [takeWhile_noNul h0]
  rcases h with rfl | ⟨hne, rfl⟩
  · have e : (asc '[' :: t ++ asc ']' :: b ++ asc '[' :: u ++ asc ']' :: b').reverse =
        b'.reverse ++ asc ']' :: (u.reverse ++ asc '[' :: (b.reverse ++ asc ']' :: (t.reverse ++ [asc '[']))) := by simp
    simp only [e, (drop_take_stop hbr' n1).1, (drop_take_stop hur n3).1, (drop_take_stop hur n3).2, (drop_take_stop hbr n1).1]
    simp
  · have e : (asc '[' :: t ++ asc ']' :: b ++ asc '(' :: u ++ asc ')' :: b').reverse =
        b'.reverse ++ asc ')' :: (u.reverse ++ asc '(' :: (b.reverse ++ asc ']' :: (t.reverse ++ [asc '[']))) := by simp
    simp only [e, (drop_take_stop hbr' n2).1, (drop_take_stop hur n4).1, (drop_take_stop hur n4).2, (drop_take_stop hbr n1).1]
    simp [hne]

theorem dropWhile_eq_cons {p : UInt8 → Bool} {s r : Bytes} {c : UInt8} (h : s.dropWhile p = c :: r) :
    s = s.takeWhile p ++ c :: r ∧ (∀ x ∈ s.takeWhile p, p x = true) ∧ p c = false := by
  refine ⟨?_, fun x hx => mem_takeWhile_imp hx, ?_⟩
  · conv => lhs; rw [← List.takeWhile_append_dropWhile (p := p) (l := s), h]
  · exact head_dropWhile (l := s) (by rw [h]; rfl)

theorem link_found {s : Bytes} (h0 : (0 : UInt8) ∉ s) (hs : s.head? = some (asc '[')) :
    IsLink s (linkText s) ∨ linkText s = [] := by
  unfold linkText
  rw [takeWhile_noNul h0]
  dsimp only
  split
  · exact .inr rfl
  · rename_i close r h1
    split
    · exact .inr rfl
    · rename_i op r2 h2
      split
      · rename_i hcond
        split
        · exact .inr rfl
        · rename_i c r3 h3
          split
          · rename_i hc
            obtain ⟨rfl, hr3⟩ := hc
            left
            obtain ⟨e1, b1, _⟩ := dropWhile_eq_cons h1
            obtain ⟨e2, b2, _⟩ := dropWhile_eq_cons h2
            obtain ⟨e3, b3, _⟩ := dropWhile_eq_cons h3
            generalize s.reverse.takeWhile isBlank = x1 at *
            generalize r.takeWhile isInner = x2 at *
            generalize r2.takeWhile isBlank = x3 at *
            have es : s = r3.reverse ++ asc ']' :: (x3.reverse ++ op :: (x2.reverse ++ close :: x1.reverse)) := by
              have := congrArg List.reverse e1
              rw [List.reverse_reverse, e2, e3] at this
              simpa using this
            obtain ⟨y, t, hy⟩ : ∃ y t, r3.reverse = y :: t := by
              cases hq : r3.reverse with
              | nil => simp at hq; exact absurd hq hr3
              | cons y t => exact ⟨y, t, rfl⟩
            rw [hy] at es ⊢
            have : y = asc '[' := by rw [es] at hs; simpa using hs
            subst this
            refine ⟨x3.reverse, x2.reverse, x1.reverse, ?_, ?_, ?_, ?_⟩
            · intro q hq; exact isBlank_iff.1 (b3 q (by simpa using hq))
            · intro q hq; exact isBlank_iff.1 (b1 q (by simpa using hq))
            · intro q hq; exact isInner_iff.1 (b2 q (by simpa using hq))
            · rcases hcond with ⟨rfl, rfl⟩ | ⟨rfl, rfl, hne⟩
              · left; rw [es]; simp
              · right; refine ⟨by simpa using hne, ?_⟩; rw [es]; simp
          · exact .inr rfl
      · exact .inr rfl

theorem spec_empty : specEnd (run [] [] {}) = {} := by decide +kernel

theorem spec_plain {s : Bytes} (h : s.head? ≠ some (asc '[')) (sp : TypeSpec) : parseTypeSpecification s = sp ↔ Specifies s sp := by
  rw [spec_run, stripMarkdownLink, if_pos h, specifies_iff]

theorem spec_link {s t : Bytes} (h0 : (0 : UInt8) ∉ s) (h : IsLink s t) (sp : TypeSpec) : parseTypeSpecification s = sp ↔ Specifies t sp := by
  have hs : s.head? = some (asc '[') := by
    obtain ⟨b, u, b', _, _, _, rfl | ⟨_, rfl⟩⟩ := h <;> simp
  rw [spec_run, stripMarkdownLink, if_neg (by simp [hs]), link_read h0 h, run_trim, specifies_iff]

theorem spec_noLink {s : Bytes} (h0 : (0 : UInt8) ∉ s) (hs : s.head? = some (asc '[')) (h : ∀ t, ¬ IsLink s t) :
    parseTypeSpecification s = {} := by
  rcases link_found h0 hs with hl | hl
  · exact absurd hl (h _)
  · rw [spec_run, stripMarkdownLink, if_neg (by simp [hs]), hl]
    exact spec_empty

/-! ## Type definitions -/

theorem attribute_word (a : Bytes) (n : Nat) :
    (∃ k, k < 7 ∧ a = (words[k]?).getD [] ∧ parseTypeAttribute a n = some (n ||| 1 <<< k)) ∨ (a ∉ words ∧ parseTypeAttribute a n = none) := by
  unfold parseTypeAttribute
  by_cases h0 : a = str "required"
  · exact .inl ⟨0, by omega, h0, by simp [h0]⟩
  by_cases h1 : a = str "optional"
  · exact .inl ⟨1, by omega, h1, by rw [if_neg h0, if_pos h1]⟩
  by_cases h2 : a = str "fixed"
  · exact .inl ⟨2, by omega, h2, by rw [if_neg h0, if_neg h1, if_pos h2]⟩
  by_cases h3 : a = str "sample"
  · exact .inl ⟨3, by omega, h3, by rw [if_neg h0, if_neg h1, if_neg h2, if_pos h3]⟩
  by_cases h4 : a = str "default"
  · exact .inl ⟨4, by omega, h4, by rw [if_neg h0, if_neg h1, if_neg h2, if_neg h3, if_pos h4]⟩
  by_cases h5 : a = str "nullable"
  · exact .inl ⟨5, by omega, h5, by rw [if_neg h0, if_neg h1, if_neg h2, if_neg h3, if_neg h4, if_pos h5]⟩
  by_cases h6 : a = str "fixed-type"
  · exact .inl ⟨6, by omega, h6, by rw [if_neg h0, if_neg h1, if_neg h2, if_neg h3, if_neg h4, if_neg h5, if_pos h6]⟩
  · right
    refine ⟨?_, by rw [if_neg h0, if_neg h1, if_neg h2, if_neg h3, if_neg h4, if_neg h5, if_neg h6]⟩
    simp [words, h0, h1, h2, h3, h4, h5, h6]

theorem denotes_iff {s : Bytes} (h0 : (0 : UInt8) ∉ s) (sp : TypeSpec) : parseTypeSpecification s = sp ↔ Denotes s sp := by
  constructor
  · rintro rfl
    by_cases hs : s.head? = some (asc '[')
    · by_cases hl : ∃ t, IsLink s t
      · obtain ⟨t, ht⟩ := hl
        exact .link s t _ ht ((spec_link h0 ht _).1 rfl)
      · rw [spec_noLink h0 hs (not_exists.1 hl)]
        exact .broken s hs (not_exists.1 hl)
    · exact .text s _ hs ((spec_plain hs _).1 rfl)
  · intro h
    cases h
    · rename_i h hs; exact (spec_plain h _).2 hs
    · rename_i t h hs; exact (spec_link h0 h _).2 hs
    · rename_i h h'; exact spec_noLink h0 h h'

/-- The loop over the attributes. -/
theorem attributes_fold (as : List Bytes) : ∀ (td : TypeDef) (found : Bool) (ws : List Warning),
    ∃ n, as.foldl attributesStep (td, found, ws) =
      ({ td with attributes := n, spec := if found then td.spec else match (others as).head? with | none => td.spec | some a => parseTypeSpecification a },
        (found || !(others as).isEmpty), ws ++ List.replicate ((others as).length - if found then 0 else 1) .unrecognized) ∧
      ∀ k, n.testBit k = (td.attributes.testBit k || decide (∃ a ∈ as, words[k]? = some a)) := by
  induction as with
  | nil => intro td found ws; exact ⟨td.attributes, by simp [others], by simp⟩
  | cons a as ih =>
    intro td found ws
    rw [List.foldl_cons]
    rcases attribute_word a td.attributes with ⟨k, hk, ha, hp⟩ | ⟨ha, hp⟩
    · have hw : words[k]? = some a := by
        rw [ha]
        have : k < words.length := hk
        simp [List.getElem?_eq_getElem this]
      have hm : a ∈ words := List.mem_of_getElem? hw
      simp only [attributesStep, hp]
      obtain ⟨n, h1, h2⟩ := ih { td with attributes := td.attributes ||| 1 <<< k } found ws
      refine ⟨n, ?_, ?_⟩
      · rw [h1]
        have : others (a :: as) = others as := by simp [others, hm]
        rw [this]
      · intro j
        rw [h2]
        simp only [Nat.testBit_or, Bool.or_assoc]
        congr 1
        have hj : (1 <<< k).testBit j = decide (k = j) := by
          rw [Nat.one_shiftLeft, Nat.testBit_two_pow]
        rw [hj]
        have nd : words.Nodup := by decide +kernel
        have key : k = j ↔ words[j]? = some a := by
          constructor
          · rintro rfl; exact hw
          · intro h
            have hjl : j < words.length := (List.getElem?_eq_some_iff.1 h).1
            exact (List.getElem?_inj hk nd).1 (hw.trans h.symm)
        simp only [key, List.mem_cons, exists_eq_or_imp, Bool.decide_or]
    · have ho : others (a :: as) = a :: others as := by simp [others, ha]
      simp only [attributesStep, hp, ho]
      have hnk : ∀ k, words[k]? ≠ some a := fun k h => ha (List.mem_of_getElem? h)
      cases found with
      | true =>
        obtain ⟨n, h1, h2⟩ := ih td true (ws ++ [.unrecognized])
        refine ⟨n, ?_, fun k => by rw [h2]; simp [hnk]⟩
        simp only [↓reduceIte]
        rw [h1]
        simp [List.replicate_succ]
      | false =>
        obtain ⟨n, h1, h2⟩ := ih { td with spec := parseTypeSpecification a } true ws
        refine ⟨n, ?_, fun k => by rw [h2]; simp [hnk]⟩
        simp only [Bool.false_eq_true, ↓reduceIte]
        rw [h1]
        simp

theorem kind_eq (c : Context) (ty : TypeName) :
    baseOf c.bases ty = kindIn (StdMap.find c.bases) ty := by
  unfold kindIn baseOf
  cases hb : ty.base with
  | none =>
    simp only [parseBaseType]
    cases StdMap.find c.bases ty.literal with
    | none => rfl
    | some b => cases b <;> rfl
  | some b => cases b <;> rfl

/-- Declared types. -/
def Context.Declared (c : Context) (name : Bytes) : Prop := (StdMap.find c.dep name).isSome

theorem refer_spec (c : Context) (d : Bytes) :
    (c.refer d).bases = c.bases ∧ (c.refer d).context = c.context ∧
    (c.refer d).error = (if (StdMap.find c.dep d).isSome then c.error else some (.undefinedType d)) ∧
    ∀ k, ((StdMap.find (c.refer d).dep k).isSome ↔ (StdMap.find c.dep k).isSome ∨ (StdMap.find c.dep d).isSome ∧ k = c.context) := by
  unfold Context.refer NamedTypes.addDependency
  cases hf : StdMap.find c.dep d with
  | none => simp
  | some deps =>
    simp only [Bool.false_and, Bool.false_eq_true, ↓reduceIte, Option.isSome_some, true_and]
    split
    · rename_i dep h
      split at h
      · cases h
        refine ⟨rfl, rfl, rfl, fun k => ?_⟩
        rw [StdMap.find_isSome, NamedTypes.keys_touch, StdMap.find_isSome]; tauto
      · cases h
        refine ⟨rfl, rfl, rfl, fun k => ?_⟩
        rw [StdMap.find_isSome, StdMap.find_isSome]
        have : StdMap.keys (List.map (fun p => if (p.1 == c.context || List.contains p.2 c.context) = true then
            (p.1, NamedTypes.Names.addAll (List.insert d p.2) deps) else p) (NamedTypes.DepTable.touch c.dep c.context)) =
            StdMap.keys (NamedTypes.DepTable.touch c.dep c.context) := by
          unfold StdMap.keys
          rw [List.map_map]
          apply List.map_congr_left
          intro p _
          simp only [Function.comp]
          split <;> rfl
        rw [this, NamedTypes.keys_touch]; tauto
    · rename_i e h
      split at h <;> cases h

/-- The specification of a list of attributes. -/
def specOf (as : List Bytes) : TypeSpec := match (others as).head? with | none => {} | some a => parseTypeSpecification a

theorem definition_spec (c : Context) (as : List Bytes) : ∃ n,
    (parseTypeDefinition c as).1 =
      ⟨kindIn (StdMap.find c.bases) (specOf as).name, specOf as, n⟩ ∧
    (∀ k, n.testBit k = decide (∃ a ∈ as, words[k]? = some a)) ∧
    (let td := (parseTypeDefinition c as).1
     (parseTypeDefinition c as).2.1 = (if td.base = .undefined ∧ td.spec.name.literal ≠ [] ∧ td.spec.name.isVariable = false
        then c.refer td.spec.name.literal else c) ∧
     (parseTypeDefinition c as).2.2 = List.replicate ((others as).length - 1) .unrecognized ++
        (if td.base ≠ .value ∧ td.base ≠ .implicitValue ∧ td.spec.nested ≠ [] then [.nestedTypes] else [])) := by
  obtain ⟨n, h1, h2⟩ := attributes_fold as {} false []
  have h3 : as.foldl attributesStep ({}, false, []) = (⟨.undefined, specOf as, n⟩, !(others as).isEmpty,
      List.replicate ((others as).length - 1) .unrecognized) := by
    rw [h1]; rfl
  generalize specOf as = sp at h3
  refine ⟨n, ?_, fun k => by rw [h2]; simp, ?_⟩
  · unfold parseTypeDefinition
    simp only [h3]
    rw [kind_eq]
  · unfold parseTypeDefinition
    simp only [h3]
    refine ⟨trivial, ?_⟩
    split <;> simp

end Verif.Mson
