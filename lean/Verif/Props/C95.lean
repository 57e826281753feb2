import Verif.Proof.SignatureParts
import Verif.Model.ParametersParser

/-! # C95: the first line of a list item -/

namespace Verif.Props
open Verif Verif.Text Verif.Signature Verif.Spec Verif.Spec.SignatureLine

/-- The parts of the line, and what is reported. -/
theorem C95_line (t : Traits) (hu : Usual t) (line : Bytes) (sig : Signature) (ws : List MsonParser.Warning) :
    (parseSignature t line = .ok sig ∧ MsonParser.signatureWarnings t line sig = ws) ↔ SignatureLine t line sig ws :=
  (Verif.SignatureLine.signature_iff hu).symm

/-- The line is read outside of the text if and only if its attributes are torn. -/
theorem C95_torn (t : Traits) (hu : Usual t) (line : Bytes) : parseSignature t line = .error .outOfBounds ↔ TornLine t line :=
  Verif.SignatureLine.torn_iff hu

/-- A line has its parts in one way at most. -/
theorem C95_one (t : Traits) (hu : Usual t) (line : Bytes) (sig sig' : Signature) (ws ws' : List MsonParser.Warning)
    (h : SignatureLine t line sig ws) (h' : SignatureLine t line sig' ws') : sig' = sig ∧ ws' = ws := by
  obtain ⟨h1, h2⟩ := (C95_line t hu line sig ws).mpr h
  obtain ⟨h3, h4⟩ := (C95_line t hu line sig' ws').mpr h'
  rw [h1] at h3
  injection h3 with h3
  subst h3
  exact ⟨rfl, h4.symm.trans h2⟩

/-- Every line has its parts, or torn attributes, and never both. -/
theorem C95_some (t : Traits) (hu : Usual t) (line : Bytes) : (∃ sig ws, SignatureLine t line sig ws) ↔ ¬ TornLine t line := by
  rw [← C95_torn t hu]
  cases h : parseSignature t line with
  | ok sig => exact ⟨(fun _ h => by cases h), fun _ => ⟨sig, _, (C95_line t hu line sig _).mp ⟨h, rfl⟩⟩⟩
  | error e =>
    cases e with
    | fuel => exact absurd h (Verif.SignatureLine.signature_fuel t line)
    | outOfBounds =>
      constructor
      · rintro ⟨sig, ws, hs⟩
        rw [((C95_line t hu line sig ws).mpr hs).1] at h
        cases h
      · exact fun h => absurd rfl h

/-- A node is read by the first line of its text, without the white characters around it; the other lines are left. -/
theorem C95_text (t : Traits) (hu : Usual t) (rest line : Bytes) (sig : Signature) (ws : List MsonParser.Warning) :
    MsonParser.signatureOf t line rest = .ok (sig, ws) ↔
      ∃ s, SignatureLine t line s ws ∧ sig = { s with remainingContent := rest } := by
  unfold MsonParser.signatureOf
  cases h : parseSignature t line with
  | ok s =>
    simp only [Except.ok.injEq, Prod.mk.injEq]
    constructor
    · rintro ⟨rfl, rfl⟩
      exact ⟨s, (C95_line t hu line s _).mp ⟨h, rfl⟩, rfl⟩
    · rintro ⟨s', h', rfl⟩
      obtain ⟨h1, h2⟩ := (C95_line t hu line s' ws).mpr h'
      rw [h1] at h
      injection h with h
      subst h
      exact ⟨rfl, h2⟩
  | error e =>
    have hn : ¬ ∃ s, SignatureLine t line s ws ∧ sig = { s with remainingContent := rest } := by
      rintro ⟨s, h', _⟩
      rw [((C95_line t hu line s ws).mpr h').1] at h
      cases h
    cases e <;> simp only [reduceCtorEq, false_iff] <;> exact hn

end Verif.Props
