import Verif.Model.Number
import Verif.Spec.Number
namespace Verif.Number
open Verif Verif.Spec

theorem isDigit_iff (c : UInt8) : isDigit c = true ↔ IsDigit c := by
  simp [isDigit, IsDigit, asc]

theorem many_nil_iff (s : Bytes) : many isDigit s = [] ↔ ∀ c ∈ s, IsDigit c := by
  induction s with
  | nil => simp [many]
  | cons c r ih =>
    by_cases h : isDigit c = true
    · simp [many, h, ih, (isDigit_iff c).1 h]
    · simp [many, h]
      intro h'; exact absurd ((isDigit_iff c).2 h') h

theorem many_split (s : Bytes) :
    ∃ pre, s = pre ++ many isDigit s ∧ (∀ c ∈ pre, IsDigit c) ∧
      (∀ c, (many isDigit s).head? = some c → ¬ IsDigit c) := by
  induction s with
  | nil => exact ⟨[], by simp [many]⟩
  | cons c r ih =>
    by_cases h : isDigit c = true
    · obtain ⟨pre, h1, h2, h3⟩ := ih
      refine ⟨c :: pre, ?_, ?_, ?_⟩
      · simp only [many, h, if_true, List.cons_append]; rw [← h1]
      · intro d hd
        rcases List.mem_cons.1 hd with rfl | hd
        · exact (isDigit_iff _).1 h
        · exact h2 d hd
      · simpa [many, h] using h3
    · refine ⟨[], ?_, by simp, ?_⟩
      · simp [many, h]
      · intro d hd
        simp [many, h] at hd
        subst hd
        exact fun h' => h ((isDigit_iff _).2 h')

/-- digits followed by something that does not begin with a digit: `many` finds the boundary -/
theorem many_append (pre q : Bytes) (hp : ∀ c ∈ pre, IsDigit c)
    (hq : ∀ c, q.head? = some c → ¬ IsDigit c) : many isDigit (pre ++ q) = q := by
  induction pre with
  | nil =>
    cases q with
    | nil => simp [many]
    | cons c r =>
      have := hq c rfl
      have h : ¬ isDigit c = true := fun h => this ((isDigit_iff _).1 h)
      simp [many, h]
  | cons c r ih =>
    have h : isDigit c = true := (isDigit_iff _).2 (hp c (by simp))
    simp only [List.cons_append, many, h, if_true]
    exact ih (fun d hd => hp d (by simp [hd]))

theorem digit_ne {c d : UInt8} (h : IsDigit c) (hd : d < 0x30 ∨ 0x39 < d) : c ≠ d := by
  rintro rfl
  rcases h with ⟨h1, h2⟩
  rcases hd with hd | hd
  · exact absurd h1 (UInt8.not_le.2 hd)
  · exact absurd h2 (UInt8.not_le.2 hd)

theorem exponent_iff (s : Bytes) : exponent s = true ↔ ExpPart s := by
  cases s with
  | nil => simp [exponent, ExpPart]
  | cons c r =>
    constructor
    · intro h
      simp only [exponent] at h
      split at h
      case isFalse => simp at h
      rename_i hc
      have hc' : c = 0x65 ∨ c = 0x45 := by simpa [asc] using hc
      cases r with
      | nil => simp [optional] at h
      | cons a r =>
        by_cases ha : a = 0x2B ∨ a = 0x2D
        · have : (decide (a = asc '+') || decide (a = asc '-')) = true := by simpa [asc] using ha
          simp only [optional, this, if_true] at h
          cases r with
          | nil => simp at h
          | cons d r' =>
            simp only at h
            split at h
            · simp at h
            · rw [List.isEmpty_iff, many_nil_iff] at h
              refine ⟨c, [a], d :: r', rfl, hc', ?_, by simp, h⟩
              rcases ha with rfl | rfl <;> simp
        · have : ¬ (decide (a = asc '+') || decide (a = asc '-')) = true := by simpa [asc] using ha
          simp only [optional, this] at h
          simp only [Bool.false_eq_true, if_false] at h
          split at h
          · simp at h
          · rw [List.isEmpty_iff, many_nil_iff] at h
            exact ⟨c, [], a :: r, rfl, hc', Or.inl rfl, by simp, h⟩
    · rintro ⟨e, sg, d, hs, he, hsg, hd, hdig⟩
      obtain ⟨rfl, rfl⟩ := List.cons.inj hs
      have hc : (decide (c = asc 'e') || decide (c = asc 'E')) = true := by simpa [asc] using he
      simp only [exponent, hc, if_true]
      cases d with
      | nil => simp at hd
      | cons d0 d' =>
        have h0 : IsDigit d0 := hdig d0 (by simp)
        have h0' : isDigit d0 = true := (isDigit_iff _).2 h0
        have h1 : d0 ≠ 0x2B := digit_ne h0 (by decide)
        have h2 : d0 ≠ 0x2D := digit_ne h0 (by decide)
        have hm : many isDigit (d0 :: d') = [] := (many_nil_iff _).2 hdig
        rcases hsg with rfl | rfl | rfl
        · have : ¬ (decide (d0 = asc '+') || decide (d0 = asc '-')) = true := by simp [asc, h1, h2]
          simp [optional, this, h0', hm]
        · simp [optional, asc, h0', hm]
        · simp [optional, asc, h0', hm]

theorem expPart_head {s : Bytes} (h : ExpPart s) : ∃ e r, s = e :: r ∧ (e = 0x65 ∨ e = 0x45) := by
  obtain ⟨e, sg, d, hs, he, _⟩ := h
  exact ⟨e, _, hs, he⟩

theorem tail_not_digit {q : Bytes} (h : q = [] ∨ ExpPart q) : ∀ c, q.head? = some c → ¬ IsDigit c := by
  intro c hc
  rcases h with rfl | h
  · simp at hc
  · obtain ⟨e, r, rfl, he⟩ := expPart_head h
    simp at hc; subst hc
    rcases he with rfl | rfl <;> simp [IsDigit]

theorem fraction_iff (s : Bytes) :
    fraction s = true ↔ s ≠ [] ∧ ∃ frac exp, s = frac ++ exp ∧ (frac = [] ∨ FracPart frac) ∧ (exp = [] ∨ ExpPart exp) := by
  cases s with
  | nil => simp [fraction]
  | cons c r =>
    constructor
    · intro h
      refine ⟨by simp, ?_⟩
      simp only [fraction] at h
      split at h
      · rename_i hc
        have hc : c = 0x2E := by simpa [asc] using hc
        subst hc
        cases r with
        | nil => simp at h
        | cons d r' =>
          simp only at h
          split at h
          · simp at h
          · rename_i hd
            have hd' : IsDigit d := (isDigit_iff _).1 (by simpa using hd)
            obtain ⟨pre, h1, h2, h3⟩ := many_split (d :: r')
            have hne : pre ≠ [] := by
              rintro rfl
              simp at h1
              have := h3 d (by rw [← h1]; rfl)
              exact this hd'
            split at h
            · rename_i hm
              rw [hm, List.append_nil] at h1
              exact ⟨0x2E :: (d :: r'), [], by simp, Or.inr ⟨_, rfl, by rw [h1]; exact hne, by rw [h1]; exact h2⟩, Or.inl rfl⟩
            · rw [exponent_iff] at h
              refine ⟨0x2E :: pre, many isDigit (d :: r'), ?_, Or.inr ⟨pre, rfl, hne, h2⟩, Or.inr h⟩
              rw [List.cons_append, ← h1]
      · rw [exponent_iff] at h
        exact ⟨[], c :: r, rfl, Or.inl rfl, Or.inr h⟩
    · rintro ⟨-, frac, exp, hs, hf, he⟩
      rcases hf with rfl | ⟨d, rfl, hdn, hdd⟩
      · simp at hs; subst hs
        rcases he with h | h
        · simp at h
        · obtain ⟨e, r', h', he'⟩ := expPart_head h
          obtain ⟨rfl, rfl⟩ := List.cons.inj h'
          have hne : ¬ (c = asc '.') := by rcases he' with rfl | rfl <;> decide
          simp only [fraction, hne, if_false]
          exact (exponent_iff _).2 h
      · simp at hs
        obtain ⟨rfl, rfl⟩ := hs
        have : (0x2E : UInt8) = asc '.' := by decide
        simp only [fraction, this, if_true]
        cases d with
        | nil => simp at hdn
        | cons d0 d' =>
          have h0 : isDigit d0 = true := (isDigit_iff _).2 (hdd d0 (by simp))
          simp only [List.cons_append, h0]
          rw [← List.cons_append, many_append _ _ hdd (tail_not_digit he)]
          rcases he with rfl | he
          · rfl
          · obtain ⟨e, r', rfl, _⟩ := expPart_head he
            exact (exponent_iff _).2 he

theorem intfrac_not_digit {f q : Bytes} (hf : f = [] ∨ FracPart f) (h : q = [] ∨ ExpPart q) :
    ∀ c, (f ++ q).head? = some c → ¬ IsDigit c := by
  rcases hf with rfl | ⟨d, rfl, _⟩
  · simpa using tail_not_digit h
  · intro c hc; simp at hc; subst hc; simp [IsDigit]

theorem isValidNumber_iff (s : Bytes) : isValidNumber s = true ↔ JsonNumber s := by
  -- reduce to the unsigned part
  have key : ∀ t : Bytes, unsigned t = true ↔
      ∃ int frac exp, t = int ++ frac ++ exp ∧ IntPart int ∧ (frac = [] ∨ FracPart frac) ∧ (exp = [] ∨ ExpPart exp) := by
    intro t
    cases t with
    | nil =>
      simp only [unsigned, Bool.false_eq_true, false_iff]
      rintro ⟨int, frac, exp, h, hi, _⟩
      have : int = [] := by
        have := congrArg List.length h; simp at this
        exact List.eq_nil_of_length_eq_zero (by omega)
      subst this
      rcases hi with hi | hi
      · simp at hi
      · exact hi.1.1 rfl
    | cons c r =>
      unfold unsigned
      by_cases hc : c = asc '0'
      · simp only [hc, if_true]
        have hc0 : asc '0' = 0x30 := by decide
        rw [hc0]
        constructor
        · intro h
          cases r with
          | nil => exact ⟨[0x30], [], [], by simp, Or.inl rfl, Or.inl rfl, Or.inl rfl⟩
          | cons a r =>
            obtain ⟨-, f, e, h1, h2, h3⟩ := (fraction_iff _).1 h
            exact ⟨[0x30], f, e, by simp [h1], Or.inl rfl, h2, h3⟩
        · rintro ⟨int, frac, exp, h, hi, hf, he⟩
          have hint : int = [0x30] := by
            rcases hi with hi | hi
            · exact hi
            · cases int with
              | nil => exact absurd rfl hi.1.1
              | cons a i =>
                simp at h
                have := hi.2; simp [← h.1] at this
          subst hint
          simp at h
          cases r with
          | nil => rfl
          | cons a r => exact (fraction_iff _).2 ⟨by simp, frac, exp, h, hf, he⟩
      · simp only [hc, if_false]
        constructor
        · intro h
          split at h
          · simp at h
          · rename_i hd
            have hd' : IsDigit c := (isDigit_iff _).1 (by simpa using hd)
            obtain ⟨pre, h1, h2, h3⟩ := many_split (c :: r)
            have hne : ∃ pre', pre = c :: pre' := by
              cases pre with
              | nil => simp at h1; exact absurd hd' (h3 c (by rw [← h1]; rfl))
              | cons a p => simp at h1; exact ⟨p, by rw [h1.1]⟩
            obtain ⟨pre', rfl⟩ := hne
            have hi : IntPart (c :: pre') := Or.inr ⟨⟨by simp, h2⟩, by
              simp; intro h; exact hc (by rw [h]; decide)⟩
            split at h
            · rename_i hm
              rw [hm, List.append_nil] at h1
              exact ⟨c :: pre', [], [], by simpa using h1, hi, Or.inl rfl, Or.inl rfl⟩
            · obtain ⟨-, f, e, h4, h5, h6⟩ := (fraction_iff _).1 h
              refine ⟨c :: pre', f, e, ?_, hi, h5, h6⟩
              rw [List.append_assoc, ← h4]; exact h1
        · rintro ⟨int, frac, exp, h, hi, hf, he⟩
          have hint : Digits int ∧ ∃ i, int = c :: i := by
            rcases hi with hi | hi
            · subst hi; simp at h; exact absurd (by rw [h.1]; decide) hc
            · refine ⟨hi.1, ?_⟩
              cases int with
              | nil => exact absurd rfl hi.1.1
              | cons a i => simp at h; exact ⟨i, by rw [h.1]⟩
          obtain ⟨hdg, i, rfl⟩ := hint
          have hd : isDigit c = true := (isDigit_iff _).2 (hdg.2 c (by simp))
          rw [h, List.append_assoc, many_append _ _ hdg.2 (intfrac_not_digit hf he)]
          simp only [hd, Bool.not_true, Bool.false_eq_true, if_false]
          cases hq : frac ++ exp with
          | nil => rfl
          | cons a q => exact (fraction_iff _).2 ⟨by simp, frac, exp, hq.symm, hf, he⟩
  unfold isValidNumber
  rw [key]
  constructor
  · rintro ⟨int, frac, exp, h, hi, hf, he⟩
    cases s with
    | nil => exact ⟨[], int, frac, exp, by simpa [optional] using h, Or.inl rfl, hi, hf, he⟩
    | cons c r =>
      by_cases hc : c = asc '-'
      · simp [optional, hc] at h
        refine ⟨[0x2D], int, frac, exp, ?_, Or.inr rfl, hi, hf, he⟩
        rw [h, hc]; simp [asc]
      · simp [optional, hc] at h
        refine ⟨[], int, frac, exp, ?_, Or.inl rfl, hi, hf, he⟩
        rw [h]; simp
  · rintro ⟨sign, int, frac, exp, h, hsg, hi, hf, he⟩
    refine ⟨int, frac, exp, ?_, hi, hf, he⟩
    rcases hsg with rfl | rfl
    · -- no sign: the first octet of `int` is not a minus
      have hh : ∃ c i, int = c :: i ∧ IsDigit c := by
        rcases hi with rfl | ⟨⟨hn, hd⟩, _⟩
        · exact ⟨0x30, [], rfl, by simp [IsDigit]⟩
        · cases int with
          | nil => exact absurd rfl hn
          | cons a i => exact ⟨a, i, rfl, hd a (by simp)⟩
      obtain ⟨c, i, rfl, hc⟩ := hh
      have hne : ¬ (c = asc '-') := digit_ne hc (by decide)
      simp at h
      simp [h, optional, hne]
    · simp at h
      simp [h, optional, asc]

end Verif.Number
