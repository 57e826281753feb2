import Verif.Proof.RecogniseMatch
import Verif.Proof.SignatureScan
import Verif.Proof.MsonLines
import Verif.Spec.ParameterLine

/-! # The first line of a parameter -/

namespace Verif.ParametersParser
open Verif Verif.Text Verif.Signature Verif.SignatureLine Verif.Spec.SignatureLine Verif.Spec Verif.Spec.ParameterLine
open Verif.Spec.ParameterLine (Traits)

/-! ## Brackets -/

theorem round_closers : Closers (str ")") := by
  intro c hc
  have : c = asc ')' := by simpa [str] using hc
  subst this; decide

/-- The bound of the loop is never reached. -/
theorem brackets_fine (s : Bytes) : matchLoop (s.length + 1) s 1 (asc ')') false false (s.take 1) = .ok (brackets s) := by
  unfold brackets
  cases s with
  | nil => rw [matchLoop]; simp
  | cons c s =>
    obtain ⟨m, r, t, h, _⟩ := scan_total s.length s (str ")") (Nat.le_refl _) round_closers
    rw [loop_scan h (asc ')') false rfl (.inl rfl) _ (c :: s) 1 false _ (by simp) (by simp) (by simp; omega)]

/-- What `brackets` gives. -/
theorem brackets_scan {s m : Bytes} {r : Option (UInt8 × Bytes)} {t : Option Bytes} (h : Scan (str ")") s m r t) :
    brackets (asc '(' :: s) = looped (asc ')') false false [asc '('] (asc '(' :: s) m r t := by
  have := brackets_fine (asc '(' :: s)
  rw [loop_scan h (asc ')') false rfl (.inl rfl) _ (asc '(' :: s) 1 false _ (by simp) (by simp) (by simp; omega)] at this
  injection this with this
  exact this.symm

/-- What counts as traits. -/
theorem counts_iff {s inner behind : Bytes} :
    Counts (asc '(' :: s) inner behind ↔ brackets (asc '(' :: s) = (inner, behind) ∧ inner.length ≠ 2 ∧ inner ≠ behind := by
  unfold Counts
  constructor
  · rintro ⟨h, h2, h3⟩
    refine ⟨?_, h2, h3⟩
    cases h with
    | closed h => rw [brackets_scan h]; simp [looped]
    | unclosed h => rw [brackets_scan h]; simp [looped]
  · rintro ⟨h, h2, h3⟩
    refine ⟨?_, h2, h3⟩
    obtain ⟨m, r, t, hs, _⟩ := scan_total s.length s (str ")") (Nat.le_refl _) round_closers
    have hb := brackets_scan hs
    rw [h] at hb
    cases r with
    | some r =>
      obtain ⟨c, r⟩ := r
      have hcl : c = asc ')' := by simpa [str] using scan_stop hs
      subst hcl
      simp only [looped, Prod.mk.injEq, Bool.false_eq_true, and_false, if_false] at hb
      obtain ⟨rfl, rfl⟩ := hb
      exact .closed hs
    | none =>
      cases t with
      | some t =>
        simp [looped, Prod.mk.injEq] at hb
        obtain ⟨rfl, rfl⟩ := hb
        exact .unclosed hs
      | none =>
        exfalso
        have hm := scan_text hs
        simp only [looped, Prod.mk.injEq] at hb
        apply h3
        rw [hb.1, hb.2]
        simp [hm, textOf]

end Verif.ParametersParser
