import Verif.Proof.ParameterLine

/-! # The first line of a parameter: its name and what follows -/

namespace Verif.ParametersParser
open Verif Verif.Text Verif.Regex Verif.MsonParser Verif.Recognition Verif.Spec Verif.Spec.Regex Verif.Spec.ParameterLine
open Verif.Spec.ParameterLine (Traits)

/-! ## The name -/

def wordRx : Rx := .group 2 (.cls false [(48, 57), (65, 90), (97, 122), (95, 95), (46, 46), (45, 45)])
def hexRx : Rx := .cls false [(65, 70), (97, 102), (48, 57)]
def percentRx : Rx := .group 3 (.seq (.cls false [(37, 37)]) (.seq hexRx hexRx))
def unitRx : Rx := .group 1 (.alt (.star wordRx) (.star percentRx))
def tickRx : Rx := .alt (.cls false [(96, 96)]) .eps
def nameRx : Rx := .seq tickRx (.seq (.plus unitRx) (.seq tickRx (.star (.cls false [(32, 32), (9, 9)]))))

theorem c_identifier : compile identifierRegex = some ⟨true, nameRx, false⟩ := by decide +kernel

theorem one_word {c : UInt8} : OneOf false [(48, 57), (65, 90), (97, 122), (95, 95), (46, 46), (45, 45)] c ↔ NameChar c := by
  simp only [OneOf, Bool.false_eq_true, if_false, List.mem_cons, List.not_mem_nil, or_false, exists_eq_or_imp, exists_eq_left, NameChar, asc]
  have h : ∀ d : UInt8, (d ≤ c ∧ c ≤ d) ↔ c = d := fun d =>
    ⟨fun h => UInt8.le_antisymm h.2 h.1, fun h => h ▸ ⟨UInt8.le_refl _, UInt8.le_refl _⟩⟩
  rw [h 95, h 46, h 45]
  rfl

theorem one_hex {c : UInt8} : OneOf false [(65, 70), (97, 102), (48, 57)] c ↔ Hex c := by
  simp only [OneOf, Bool.false_eq_true, if_false, List.mem_cons, List.not_mem_nil, or_false, exists_eq_or_imp, exists_eq_left, Hex, asc]
  rfl

theorem lang_word {s : Bytes} : Lang wordRx s ↔ ∃ c, s = [c] ∧ NameChar c := by
  unfold wordRx
  rw [lang_group, lang_cls]
  simp only [one_word]

theorem lang_percent {s : Bytes} : Lang percentRx s ↔ ∃ a b, s = [asc '%', a, b] ∧ Hex a ∧ Hex b := by
  unfold percentRx hexRx
  simp only [lang_group, lang_seq, lang_cls, one_hex, oneOf_single]
  constructor
  · rintro ⟨_, _, rfl, ⟨_, rfl, rfl⟩, _, _, rfl, ⟨a, rfl, ha⟩, b, rfl, hb⟩
    exact ⟨a, b, rfl, ha, hb⟩
  · rintro ⟨a, b, rfl, ha, hb⟩
    exact ⟨_, _, rfl, ⟨_, rfl, rfl⟩, _, _, rfl, ⟨a, rfl, ha⟩, b, rfl, hb⟩

theorem word_append {x y : Bytes} (hx : Word x) (hy : Word y) : Word (x ++ y) := by
  induction hx with
  | nil => exact hy
  | char h _ ih => exact .char h ih
  | percent h h' _ ih => exact .percent h h' ih

theorem star_closed {a : Rx} {P : Bytes → Prop} (h0 : P []) (hc : ∀ x y, P x → P y → P (x ++ y)) (ha : ∀ x, Lang a x → P x) {s : Bytes}
    (h : Lang (.star a) s) : P s := by
  generalize hr : Rx.star a = r at h
  induction h with
  | none => exact h0
  | more h1 _ _ ih => cases hr; exact hc _ _ (ha _ h1) (ih rfl)
  | eps => cases hr
  | cls => cases hr
  | seq => cases hr
  | left => cases hr
  | right => cases hr
  | plus => cases hr
  | group => cases hr

theorem unit_word {s : Bytes} (h : Lang unitRx s) : Word s := by
  unfold unitRx at h
  rw [lang_group, lang_alt] at h
  rcases h with h | h
  · refine star_closed .nil (fun _ _ => word_append) (fun x hx => ?_) h
    obtain ⟨c, rfl, hc⟩ := lang_word.mp hx
    exact .char hc .nil
  · refine star_closed .nil (fun _ _ => word_append) (fun x hx => ?_) h
    obtain ⟨a, b, rfl, ha, hb⟩ := lang_percent.mp hx
    exact .percent ha hb .nil

theorem lang_units {s : Bytes} : Lang (.plus unitRx) s ↔ Word s := by
  constructor
  · intro h
    cases h with
    | plus h1 h2 => exact word_append (unit_word h1) (star_closed .nil (fun _ _ => word_append) (fun _ => unit_word) h2)
  · intro h
    have hs : Lang (.star unitRx) s := by
      induction h with
      | nil => exact .none
      | @char c s hc _ ih =>
        refine .more (x := [c]) ?_ ih
        unfold unitRx
        exact .group (.left (.more (x := [c]) (lang_word.mpr ⟨c, rfl, hc⟩) .none))
      | @percent a b s ha hb _ ih =>
        refine .more (x := [asc '%', a, b]) ?_ ih
        unfold unitRx
        exact .group (.right (.more (x := [asc '%', a, b]) (lang_percent.mpr ⟨a, b, rfl, ha, hb⟩) .none))
    exact .plus (x := []) (.group (.left .none)) hs

theorem lang_tick {s : Bytes} : Lang tickRx s ↔ Tick s := by
  unfold tickRx Tick
  simp only [lang_alt, lang_cls, lang_eps, oneOf_single]
  constructor
  · rintro (⟨c, rfl, rfl⟩ | rfl)
    · exact .inr rfl
    · exact .inl rfl
  · rintro (rfl | rfl)
    · exact .inr rfl
    · exact .inl ⟨_, rfl, rfl⟩

theorem lang_name {s : Bytes} : Lang nameRx s ↔ NameText s := by
  unfold nameRx NameText
  simp only [lang_seq, lang_tick, lang_units, lang_star_cls]
  have hb : ∀ c : UInt8, OneOf false [(32, 32), (9, 9)] c ↔ c = asc ' ' ∨ c = asc '\t' := by
    intro c
    simp only [OneOf, Bool.false_eq_true, if_false, List.mem_cons, List.not_mem_nil, or_false, exists_eq_or_imp, exists_eq_left]
    have h : ∀ d : UInt8, (d ≤ c ∧ c ≤ d) ↔ c = d := fun d =>
      ⟨fun h => UInt8.le_antisymm h.2 h.1, fun h => h ▸ ⟨UInt8.le_refl _, UInt8.le_refl _⟩⟩
    rw [h 32, h 9]; rfl
  simp only [hb]
  constructor
  · rintro ⟨a, _, rfl, ha, b, _, rfl, h, c, d, rfl, hc, hd⟩
    exact ⟨a, b, c, d, by simp, ha, h, hc, hd⟩
  · rintro ⟨a, b, c, d, rfl, ha, h, hc, hd⟩
    exact ⟨a, _, by simp, ha, b, _, rfl, h, c, d, rfl, hc, hd⟩

theorem word_nul {s : Bytes} (h : Word s) : 0 ∉ s := by
  have hc : ∀ c, NameChar c → c ≠ 0 := by
    rintro c h rfl
    revert h; unfold NameChar; decide
  have hh : ∀ c, Hex c → c ≠ 0 := by
    rintro c h rfl
    revert h; unfold Hex; decide
  induction h with
  | nil => simp
  | char h _ ih => simp [ih, (hc _ h).symm]
  | percent h h' _ ih =>
    simp only [List.mem_cons, not_or]
    exact ⟨by decide, (hh _ h).symm, (hh _ h').symm, ih⟩

theorem tick_nul {s : Bytes} (h : Tick s) : 0 ∉ s := by
  rcases h with rfl | rfl <;> decide

theorem name_nul {s : Bytes} (h : NameText s) : 0 ∉ s := by
  obtain ⟨a, b, c, d, rfl, ha, hb, hc, hd⟩ := h
  simp only [List.mem_append, not_or]
  refine ⟨⟨⟨tick_nul ha, word_nul hb⟩, tick_nul hc⟩, fun h => ?_⟩
  rcases hd 0 h with h | h <;> revert h <;> decide

theorem cstr_append {p s : Bytes} (h : 0 ∉ p) : cstr (p ++ s) = p ++ cstr s := by
  unfold cstr
  rw [List.takeWhile_append_of_pos]
  intro c hc
  simp only [ne_eq, decide_not, Bool.not_eq_true', decide_eq_false_iff_not]
  rintro rfl; exact h hc

theorem cstr_more (s : Bytes) : ∃ r, s = cstr s ++ r := ⟨s.dropWhile (· ≠ 0), (List.takeWhile_append_dropWhile ..).symm⟩

theorem named_one {s p r p' r' : Bytes} (h : Named s p r) (h' : Named s p' r') : p = p' ∧ r = r' := by
  obtain ⟨e, hn, _, hm⟩ := h
  obtain ⟨e', hn', _, hm'⟩ := h'
  exact List.append_inj (e.symm.trans e') (Nat.le_antisymm (hm' _ _ e hn) (hm _ _ e' hn'))

/-- The expression finds the name. -/
theorem name_spec (s : Bytes) (h0 : s ≠ []) : ∃ g m rest, regexCapture s identifierRegex = some g ∧ g.getD 0 [] = m ∧ s = m ++ rest ∧
    NameText m ∧ ∀ p' rest', s = p' ++ rest' → NameText p' → p'.length ≤ m.length := by
  unfold regexCapture
  have ht : s.isEmpty = false := by cases s with | nil => exact absurd rfl h0 | cons _ _ => rfl
  have he : identifierRegex.isEmpty = false := by decide +kernel
  simp only [he, ht, c_identifier, Bool.or_false, Bool.false_eq_true, if_false]
  cases hs : search ⟨true, nameRx, false⟩ (cstr s) with
  | none =>
    refine absurd (lang_name.mpr ⟨[], [], [], [], rfl, .inl rfl, .nil, .inl rfl, by simp⟩) (search_prefix_none.mp hs [] (cstr s) rfl)
  | some m =>
    obtain ⟨rest, h1, h2, h3⟩ := search_prefix hs
    obtain ⟨more, hm⟩ := cstr_more s
    refine ⟨_, m, rest ++ more, rfl, getD_range (by omega), by rw [← List.append_assoc, ← h1]; exact hm, lang_name.mp h2, ?_⟩
    intro p' rest' e hn
    have := cstr_append (s := rest') (name_nul hn)
    rw [← e] at this
    exact h3 p' _ this (lang_name.mpr hn)

/-- What a line that begins with a name says. -/
theorem type_named {line s p rest : Bytes} (hs : Trimmed line s) (h : Named s p rest) :
    getParameterType line = afterName (trim rest) := by
  obtain ⟨e, hn, hp, hm⟩ := h
  have e0 : trim line = s := (trimmed_iff.mp hs).symm
  have h0 : s ≠ [] := by rintro rfl; cases p with | nil => exact hp rfl | cons _ _ => cases e
  obtain ⟨g, m, rest', hg, hg0, e', hn', hm'⟩ := name_spec s h0
  obtain ⟨rfl, rfl⟩ := List.append_inj (e.symm.trans e') (Nat.le_antisymm (hm' _ _ e hn) (hm _ _ e' hn'))
  unfold getParameterType
  simp only [e0, hg, hg0]
  rw [if_neg (by cases p with | nil => exact absurd rfl hp | cons _ _ => simp), e, List.drop_left]

/-- What other lines say. -/
theorem type_unnamed {line s : Bytes} (hs : Trimmed line s) (h : ∀ p rest, ¬ Named s p rest) : getParameterType line = .none := by
  have e0 : trim line = s := (trimmed_iff.mp hs).symm
  unfold getParameterType
  simp only [e0]
  by_cases h0 : s = []
  · subst h0
    have : regexCapture [] identifierRegex = none := by simp [regexCapture]
    simp only [this]
  · obtain ⟨g, m, rest', hg, hg0, e', hn', hm'⟩ := name_spec s h0
    simp only [hg, hg0]
    rw [if_pos]
    cases m with
    | nil => rfl
    | cons a m => exact absurd ⟨e', hn', by simp, hm'⟩ (h _ _)

/-! ## What stands behind the name -/

def enumRx : Rx := .seq (.cls false [(101, 101)]) (.seq (.cls false [(110, 110)]) (.seq (.cls false [(117, 117)]) (.seq (.cls false [(109, 109)])
  (.seq (.cls false [(91, 91)]) (.seq (.plus (.cls true [(93, 93), (91, 91)])) (.cls false [(93, 93)]))))))

theorem c_enum : compile (str "enum\\[[^][]+]") = some ⟨false, enumRx, false⟩ := by decide +kernel
theorem c_tick : compile (str "`") = some ⟨false, .cls false [(96, 96)], false⟩ := by decide +kernel

theorem lang_enum {s : Bytes} : Lang enumRx s ↔ ∃ v, s = str "enum[" ++ v ++ [asc ']'] ∧ v ≠ [] ∧ ∀ c ∈ v, c ≠ asc '[' ∧ c ≠ asc ']' := by
  unfold enumRx
  simp only [lang_seq, lang_cls, oneOf_single, lang_plus_cls]
  have hn : ∀ c, OneOf true [(93, 93), (91, 91)] c ↔ c ≠ asc '[' ∧ c ≠ asc ']' := by
    intro c
    have h : ∀ d : UInt8, (d ≤ c ∧ c ≤ d) ↔ c = d := fun d =>
      ⟨fun h => UInt8.le_antisymm h.2 h.1, fun h => h ▸ ⟨UInt8.le_refl _, UInt8.le_refl _⟩⟩
    simp only [OneOf, if_true, List.mem_cons, List.not_mem_nil, or_false, forall_eq_or_imp, forall_eq, h]
    exact and_comm
  simp only [hn]
  have hw : str "enum[" = [101, 110, 117, 109, 91] := by decide
  rw [hw]
  constructor
  · rintro ⟨_, _, rfl, ⟨_, rfl, rfl⟩, _, _, rfl, ⟨_, rfl, rfl⟩, _, _, rfl, ⟨_, rfl, rfl⟩, _, _, rfl, ⟨_, rfl, rfl⟩, _, _, rfl, ⟨_, rfl, rfl⟩, v, _, rfl, ⟨hv, hv'⟩, _, rfl, rfl⟩
    exact ⟨v, by simp [asc], hv, hv'⟩
  · rintro ⟨v, rfl, hv, hv'⟩
    exact ⟨[101], [110, 117, 109, 91] ++ (v ++ [asc ']']), by simp, ⟨_, rfl, rfl⟩, [110], [117, 109, 91] ++ (v ++ [asc ']']), by simp, ⟨_, rfl, rfl⟩, [117], [109, 91] ++ (v ++ [asc ']']), by simp,
      ⟨_, rfl, rfl⟩, [109], [91] ++ (v ++ [asc ']']), by simp, ⟨_, rfl, rfl⟩, [91], v ++ [asc ']'], by simp, ⟨_, rfl, rfl⟩, v, _, rfl, ⟨hv, hv'⟩, _, rfl, rfl⟩

/-- A search that begins anywhere. -/
theorem match_anywhere {t e : Bytes} {x : Rx} (hc : compile e = some ⟨false, x, false⟩) (he : e.isEmpty = false) (h0 : ¬ Lang x []) :
    regexMatch t e = true ↔ ∃ a m b, cstr t = a ++ m ++ b ∧ Lang x m := by
  unfold regexMatch
  cases t with
  | nil =>
    simp only [List.isEmpty_nil, Bool.true_or, if_true, Bool.false_eq_true, false_iff]
    rintro ⟨a, m, b, h, hl⟩
    have : m = [] := by
      have := congrArg List.length h
      simp [cstr] at this
      cases m with | nil => rfl | cons _ _ => simp at this; omega
    exact h0 (this ▸ hl)
  | cons c t =>
    simp only [he, hc, List.isEmpty_cons, Bool.or_false, Bool.false_eq_true, if_false]
    cases hs : search ⟨false, x, false⟩ (cstr (c :: t)) with
    | none =>
      simp only [Option.isSome_none, Bool.false_eq_true, false_iff]
      rintro ⟨a, m, b, h, hl⟩
      exact search_none hs a m b h ⟨hl, by simp, by simp⟩
    | some m =>
      obtain ⟨a, b, h1, h2, _⟩ := search_some hs
      simp only [Option.isSome_some, true_iff]
      exact ⟨a, m, b, h1, h2.1⟩

theorem beforeNul_iff {t s : Bytes} : BeforeNul t s ↔ s = cstr t := by
  unfold BeforeNul; exact cstr_iff.symm

theorem hasEnum_iff {t : Bytes} : regexMatch t (str "enum\\[[^][]+]") = true ↔ HasEnum t := by
  rw [match_anywhere c_enum (by decide +kernel) (by rw [lang_enum]; rintro ⟨v, h, _⟩; simp at h)]
  simp only [lang_enum, HasEnum, beforeNul_iff]
  constructor
  · rintro ⟨a, _, b, h, v, rfl, hv, hv'⟩
    exact ⟨_, a, v, b, rfl, by rw [h]; simp, hv, hv'⟩
  · rintro ⟨_, x, v, y, rfl, h, hv, hv'⟩
    exact ⟨x, _, y, by rw [h]; simp, v, rfl, hv, hv'⟩

theorem hasTick_iff {t : Bytes} : regexMatch t (str "`") = true ↔ HasTick t := by
  rw [match_anywhere c_tick (by decide +kernel) (by rw [lang_cls]; rintro ⟨v, h, _⟩; simp at h)]
  simp only [lang_cls, oneOf_single, HasTick, beforeNul_iff, exists_eq_left]
  constructor
  · rintro ⟨a, _, b, h, c, rfl, rfl⟩
    rw [h]; simp [asc]
  · intro h
    obtain ⟨a, b, h⟩ := List.append_of_mem h
    exact ⟨a, [asc '`'], b, by rw [h]; simp, _, rfl, rfl⟩

theorem empty_iff {s : Bytes} : (trim s).isEmpty = true ↔ Trimmed s [] := by
  rw [trimmed_iff, List.isEmpty_iff]; exact eq_comm

theorem afterTraits_iff {s : Bytes} {x : Syntax} (hx : x ≠ .none) : afterTraits s = x ↔ Describes s x := by
  unfold afterTraits
  have hd : str "..." = [asc '.', asc '.', asc '.'] := by decide
  constructor
  · intro h
    split at h
    · rename_i h'
      subst h
      cases s with
      | nil => cases h'
      | cons a s => simp at h'; subst h'; exact .new
    · split at h
      · rename_i h'
        subst h
        rw [hd] at h'
        have : s = [asc '.', asc '.', asc '.'] ++ s.drop 3 := by rw [← h', List.take_append_drop]
        rw [this]; exact .old
      · exact absurd h.symm hx
  · intro h
    cases h with
    | new => simp
    | old => rw [if_neg (by simp; decide), hd]; simp

theorem counts_open {s inner behind : Bytes} (h : Counts s inner behind) : ∃ r, s = asc '(' :: r := by
  obtain ⟨h, _⟩ := h
  cases h with
  | closed => exact ⟨_, rfl⟩
  | unclosed => exact ⟨_, rfl⟩

/-- What stands behind the name, and the syntax. -/
theorem afterName_iff {s : Bytes} {x : Syntax} (hx : x ≠ .none) : afterName s = x ↔ Tells s x := by
  unfold afterName
  cases s with
  | nil =>
    simp only [List.isEmpty_nil, if_true]
    constructor
    · rintro rfl; exact .nothing
    · intro h
      cases h with
      | nothing => rfl
      | enum h => obtain ⟨_, h⟩ := counts_open h; cases h
      | ticks h => obtain ⟨_, h⟩ := counts_open h; cases h
      | traits h => obtain ⟨_, h⟩ := counts_open h; cases h
      | described h => obtain ⟨_, h⟩ := counts_open h; cases h
      | description h => cases h
  | cons c s =>
    simp only [List.isEmpty_cons, Bool.false_eq_true, if_false, List.head?_cons, Option.some.injEq, List.drop_succ_cons, List.drop_zero]
    by_cases h1 : c = asc ':'
    · subst h1
      have hc : ∀ {i b}, ¬ Counts (asc ':' :: s) i b := by
        intro i b h; obtain ⟨_, h⟩ := counts_open h; injection h with h; revert h; decide
      rw [if_pos (.inl rfl)]
      constructor
      · intro h
        split at h
        · exact absurd h.symm hx
        · rename_i h'
          rw [if_pos rfl] at h
          subst h
          exact .sample (fun h => h' (empty_iff.mpr h))
      · intro h
        cases h with
        | sample h => rw [if_neg (fun h' => h (empty_iff.mp h')), if_pos rfl]
        | enum h => exact absurd h hc
        | ticks h => exact absurd h hc
        | traits h => exact absurd h hc
        | described h => exact absurd h hc
        | description h => cases h
    by_cases h2 : c = asc '='
    · subst h2
      have hc : ∀ {i b}, ¬ Counts (asc '=' :: s) i b := by
        intro i b h; obtain ⟨_, h⟩ := counts_open h; injection h with h; revert h; decide
      rw [if_pos (.inr rfl)]
      constructor
      · intro h
        split at h
        · exact absurd h.symm hx
        · rename_i h'
          subst h
          exact .default (fun h => h' (empty_iff.mpr h))
      · intro h
        cases h with
        | default h => rw [if_neg (fun h' => h (empty_iff.mp h')), if_neg h1]
        | enum h => exact absurd h hc
        | ticks h => exact absurd h hc
        | traits h => exact absurd h hc
        | described h => exact absurd h hc
        | description h => cases h
    rw [if_neg (by simp [h1, h2])]
    by_cases h3 : c = asc '('
    · subst h3
      rw [if_pos rfl]
      have hd : ∀ {y}, ¬ Describes (asc '(' :: s) y := by
        intro y h
        generalize e : asc '(' :: s = l at h
        cases h with
        | new => injection e with e; revert e; decide
        | old => injection e with e; revert e; decide
      cases hb : brackets (asc '(' :: s) with
      | mk inner behind =>
      have hone : ∀ {i b}, Counts (asc '(' :: s) i b → i = inner ∧ b = behind := by
        intro i b h
        have := (counts_iff.mp h).1
        rw [hb] at this
        simp only [Prod.mk.injEq] at this
        exact ⟨this.1.symm, this.2.symm⟩
      simp only []
      by_cases h4 : inner.length = 2 ∨ inner = behind
      · rw [if_pos h4]
        have hc : ∀ {i b}, ¬ Counts (asc '(' :: s) i b := by
          intro i b h
          obtain ⟨rfl, rfl⟩ := hone h
          rcases h4 with h4 | h4
          · exact h.2.1 h4
          · exact h.2.2 h4
        constructor
        · intro h; exact absurd h.symm hx
        · intro h
          cases h with
          | enum h => exact absurd h hc
          | ticks h => exact absurd h hc
          | traits h => exact absurd h hc
          | described h => exact absurd h hc
          | description h => exact absurd h hd
      · rw [if_neg h4]
        have hcount : Counts (asc '(' :: s) inner behind := counts_iff.mpr ⟨hb, fun h => h4 (.inl h), fun h => h4 (.inr h)⟩
        constructor
        · intro h
          split at h
          · rename_i h5; subst h; exact .enum hcount (hasEnum_iff.mp h5)
          rename_i h5
          rw [hasEnum_iff] at h5
          split at h
          · rename_i h6; subst h; exact .ticks hcount h5 (hasTick_iff.mp h6)
          rename_i h6
          rw [hasTick_iff] at h6
          split at h
          · rename_i h7; subst h; exact .traits hcount h5 h6 (empty_iff.mp h7)
          · exact .described hcount h5 h6 (trim_spec _) ((afterTraits_iff hx).mp h)
        · intro h
          cases h with
          | enum h h5 => obtain ⟨rfl, rfl⟩ := hone h; rw [if_pos (hasEnum_iff.mpr h5)]
          | ticks h h5 h6 =>
            obtain ⟨rfl, rfl⟩ := hone h
            rw [if_neg (fun h' => h5 (hasEnum_iff.mp h')), if_pos (hasTick_iff.mpr h6)]
          | traits h h5 h6 h7 =>
            obtain ⟨rfl, rfl⟩ := hone h
            rw [if_neg (fun h' => h5 (hasEnum_iff.mp h')), if_neg (fun h' => h6 (hasTick_iff.mp h')), if_pos (empty_iff.mpr h7)]
          | described h h5 h6 h7 h8 =>
            obtain ⟨rfl, rfl⟩ := hone h
            have e7 := trimmed_iff.mp h7
            subst e7
            rw [if_neg (fun h' => h5 (hasEnum_iff.mp h')), if_neg (fun h' => h6 (hasTick_iff.mp h'))]
            rw [if_neg, (afterTraits_iff hx).mpr h8]
            intro h9
            rw [List.isEmpty_iff] at h9
            rw [h9] at h8
            cases h8
          | description h => exact absurd h hd
    · rw [if_neg h3, afterTraits_iff hx]
      have hc : ∀ {i b}, ¬ Counts (c :: s) i b := by
        intro i b h; obtain ⟨_, h⟩ := counts_open h; injection h with h; exact h3 h
      constructor
      · exact .description
      · intro h
        cases h with
        | sample h => exact absurd rfl h1
        | default h => exact absurd rfl h2
        | enum h => exact absurd h hc
        | ticks h => exact absurd h hc
        | traits h => exact absurd h hc
        | described h => exact absurd h hc
        | description h => exact h

/-- The syntax of a line. -/
theorem lineTells_iff {line : Bytes} {x : Syntax} (hx : x ≠ .none) : getParameterType line = x ↔ LineTells line x := by
  constructor
  · intro h
    by_cases hn : ∃ p rest, Named (trim line) p rest
    · obtain ⟨p, rest, hn⟩ := hn
      rw [type_named (trim_spec _) hn] at h
      exact ⟨_, p, rest, _, trim_spec _, hn, trim_spec _, (afterName_iff hx).mp h⟩
    · rw [type_unnamed (trim_spec _) (fun p r h => hn ⟨p, r, h⟩)] at h
      exact absurd h.symm hx
  · rintro ⟨s, p, rest, u, hs, hn, hu, ht⟩
    rw [type_named hs hn, ← trimmed_iff.mp hu]
    exact (afterName_iff hx).mpr ht

end Verif.ParametersParser
