import Verif.Proof.Number
import Verif.Proof.Util
/-!
# C10 – number literals are recognised exactly
-/
namespace Verif.Props
open Verif Verif.Spec Verif.Number

/-- A text is accepted by the number recogniser iff it is an ECMA-404 number. -/
theorem C10_number_grammar (s : Bytes) : isValidNumber s = true ↔ JsonNumber s :=
  isValidNumber_iff s

example : isValidNumber (str "-12.50e+07") = true ∧ isValidNumber (str "012") = false := by decide

theorem isspace_iff (c : UInt8) : isspace c = true ↔ IsSpace c := by
  revert c; unfold IsSpace; exact forallU8 (by decide +kernel)

/-- Converting a literal to a number: it succeeds with text `d` iff the literal is `d` followed by white space
    only and `d` is an ECMA-404 number.  (So whatever is accepted can be emitted verbatim as a JSON number.) -/
theorem C10_literal_to_number (s d : Bytes) :
    literalToNumber s = some d ↔ JsonNumber d ∧ ∃ ws, s = d ++ ws ∧ ∀ c ∈ ws, IsSpace c := by
  have hsplit : ∀ s : Bytes, s = rstrip s ++ (s.reverse.takeWhile isspace).reverse := by
    intro s
    have := List.takeWhile_append_dropWhile (p := isspace) (l := s.reverse)
    have := congrArg List.reverse this
    simp only [List.reverse_append, List.reverse_reverse] at this
    exact this.symm
  constructor
  · intro h
    unfold literalToNumber at h
    split at h
    · rename_i hv
      simp at h; subst h
      refine ⟨(isValidNumber_iff _).1 hv, _, hsplit s, ?_⟩
      intro c hc
      rw [List.mem_reverse] at hc
      have := mem_takeWhile_imp hc
      exact (isspace_iff c).1 this
    · simp at h
  · rintro ⟨hn, ws, rfl, hws⟩
    -- the last octet of a number is not white space
    have hlast : ∀ c, d.getLast? = some c → ¬ isspace c = true := by
      obtain ⟨sg, i, f, e, rfl, hsg, hi, hf, he⟩ := hn
      have hdl : ∀ x : Bytes, Digits x → ∀ c, x.getLast? = some c → ¬ isspace c = true := by
        intro x hx c hc
        have hm := hx.2 c (List.mem_of_getLast? hc)
        have : ∀ c : UInt8, (0x30 ≤ c ∧ c ≤ 0x39) → ¬ isspace c = true := forallU8 (by decide +kernel)
        exact this c hm
      have hil : ∀ c, i.getLast? = some c → ¬ isspace c = true := by
        rcases hi with rfl | hi
        · intro c hc; simp at hc; subst hc; decide
        · exact hdl i hi.1
      have hin : i ≠ [] := by rcases hi with rfl | hi; simp; exact hi.1.1
      rcases he with rfl | ⟨e0, s0, d0, rfl, _, _, hd0⟩
      · rcases hf with rfl | ⟨d1, rfl, hd1⟩
        · intro c hc
          rw [List.append_nil, List.append_nil, getLast?_append_ne_nil _ hin] at hc
          exact hil c hc
        · intro c hc
          rw [List.append_nil, getLast?_append_ne_nil _ (by simp)] at hc
          rw [show (0x2E :: d1 : Bytes) = [0x2E] ++ d1 from rfl, getLast?_append_ne_nil _ hd1.1] at hc
          exact hdl d1 hd1 c hc
      · intro c hc
        rw [getLast?_append_ne_nil _ (by simp)] at hc
        rw [show (e0 :: (s0 ++ d0) : Bytes) = (e0 :: s0) ++ d0 from rfl, getLast?_append_ne_nil _ hd0.1] at hc
        exact hdl d0 hd0 c hc
    have hr : rstrip (d ++ ws) = d := by
      unfold rstrip
      rw [List.reverse_append, List.dropWhile_append_of_pos]
      · cases hd : d.reverse with
        | nil => simp at hd; simp [hd]
        | cons a t =>
          have ha : d.getLast? = some a := by rw [List.getLast?_eq_head?_reverse, hd]; rfl
          have := hlast a ha
          rw [List.dropWhile_cons_of_neg this, ← hd, List.reverse_reverse]
      · intro c hc
        exact (isspace_iff c).2 (hws c (by simpa using hc))
    unfold literalToNumber
    rw [hr, (isValidNumber_iff d).2 hn]; simp

example : literalToNumber (str "1.5  ") = some (str "1.5") ∧ literalToNumber (str "1.5 x") = none := by decide

/-- Booleans: exactly the two literals `true` and `false`. -/
theorem C10_literal_to_boolean (s : Bytes) (v : Bool) :
    literalToBoolean s = some v ↔ s = (if v then str "true" else str "false") := by
  unfold literalToBoolean
  constructor
  · intro h
    split at h
    · rename_i hs
      simp at hs h
      rcases hs with rfl | rfl
      · simp at h; subst h; rfl
      · have : ¬ (str "false" = str "true") := by decide
        simp [this] at h; subst h; rfl
    · simp at h
  · rintro rfl
    cases v <;> decide

end Verif.Props
