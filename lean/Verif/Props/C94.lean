import Verif.Proof.ParametersSection

/-! # C94: which list items are parameters -/

namespace Verif.Props
open Verif Verif.Text Verif.Section Verif.ParametersParser Verif.Spec Verif.Spec.ParameterLine Verif.Spec.SignatureLine

/-- The syntax that is found is the one the line is in. -/
theorem C94_line (line : Bytes) (x : Syntax) (hx : x ≠ .none) : getParameterType line = x ↔ LineTells line x := lineTells_iff hx

/-- None is found if the line is in neither of them. -/
theorem C94_none (line : Bytes) : getParameterType line = .none ↔ ∀ x, ¬ LineTells line x := by
  constructor
  · intro h x ht
    cases x with
    | none =>
      obtain ⟨_, _, _, _, _, _, _, ht⟩ := ht
      generalize e : Syntax.none = x at ht
      cases ht with
      | nothing => cases e
      | sample => cases e
      | default => cases e
      | enum => cases e
      | ticks => cases e
      | traits => cases e
      | described _ _ _ _ h => subst e; cases h
      | description h => subst e; cases h
    | old => rw [(lineTells_iff (by simp)).mpr ht] at h; cases h
    | new => rw [(lineTells_iff (by simp)).mpr ht] at h; cases h
  · intro h
    cases hx : getParameterType line with
    | none => rfl
    | old => exact absurd ((lineTells_iff (by simp)).mp hx) (h _)
    | new => exact absurd ((lineTells_iff (by simp)).mp hx) (h _)

/-- No line is in both. -/
theorem C94_one (line : Bytes) (h : LineTells line .old) (h' : LineTells line .new) : False := by
  have := (lineTells_iff (by simp)).mpr h
  rw [(lineTells_iff (by simp)).mpr h'] at this
  cases this

/-- A block begins a parameter of the old syntax, of the new one, or none: the blocks in it tell, or else its first line. -/
theorem C94_item (n : Node) :
    (parameterType n = .parameter ↔ Spec.ParametersParser.IsOld n) ∧ (parameterType n = .msonParameter ↔ Spec.ParametersParser.IsNew n) ∧
      (parameterType n = .undefined ↔ ¬ Spec.ParametersParser.IsOld n ∧ ¬ Spec.ParametersParser.IsNew n) := by
  refine ⟨isOld_iff.symm, isNew_iff.symm, ?_⟩
  rw [isOld_iff, isNew_iff]
  rcases parameterType_values n with h | h | h <;> rw [h] <;> simp

/-- The reading of brackets ends on every text: the loop needs no more steps than the text has characters, and one; and what it reads is
what the one reading of the text up to the closing bracket says. -/
theorem C94_ends (s : Bytes) :
    Signature.matchLoop (s.length + 1) s 1 (asc ')') false false (s.take 1) ≠ .error .fuel ∧
      ∃ m r t, Scan (str ")") s m r t ∧ ∀ m' r' t', Scan (str ")") s m' r' t' → m' = m ∧ r' = r ∧ t' = t := by
  obtain ⟨m, r, t, h, _⟩ := SignatureLine.scan_total s.length s (str ")") (Nat.le_refl _) round_closers
  refine ⟨?_, m, r, t, h, fun _ _ _ h' => SignatureLine.scan_one h round_closers h'⟩
  rw [brackets_fine]
  simp

end Verif.Props
