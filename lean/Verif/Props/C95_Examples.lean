import Verif.Props.C95

/-! # C95: lines -/

namespace Verif.Props
open Verif Verif.Text Verif.Signature Verif.Spec Verif.Spec.SignatureLine
open Verif.MsonParser (valueTraits propertyTraits typeTraits typeSectionTraits oneOfTraits signatureWarnings)
open Verif.ParametersParser (oldTraits newTraits)

/-- The kinds of items there are. -/
example : ∀ t ∈ [valueTraits, propertyTraits, typeTraits, typeSectionTraits, oneOfTraits, oldTraits, newTraits], Usual t := by
  intro t ht
  simp only [List.mem_cons, List.not_mem_nil, or_false] at ht
  rcases ht with rfl | rfl | rfl | rfl | rfl | rfl | rfl <;> exact ⟨by decide, by decide⟩

theorem usual_property : Usual propertyTraits := ⟨by decide, by decide⟩
theorem usual_value : Usual valueTraits := ⟨by decide, by decide⟩
theorem usual_old : Usual oldTraits := ⟨by decide, by decide⟩

/-- What the line gives. -/
def gives (t : Traits) (line : Bytes) (sig : Signature) : Bool :=
  match parseSignature t line with
  | .ok s => decide (s = sig)
  | .error _ => false

def outside (t : Traits) (line : Bytes) : Bool :=
  match parseSignature t line with
  | .error .outOfBounds => true
  | _ => false

theorem line_of {t : Traits} (hu : Usual t) {line : Bytes} {sig : Signature} {ws : List MsonParser.Warning} (h : gives t line sig = true)
    (hw : signatureWarnings t line sig = ws) : SignatureLine t line sig ws := by
  refine (C95_line t hu line sig ws).mp ⟨?_, hw⟩
  unfold gives at h
  cases hp : parseSignature t line with
  | ok s => rw [hp] at h; simp only [decide_eq_true_eq] at h; rw [h]
  | error e => rw [hp] at h; cases h

theorem torn_of {t : Traits} (hu : Usual t) {line : Bytes} (h : outside t line = true) : TornLine t line := by
  refine (C95_torn t hu line).mp ?_
  unfold outside at h
  cases hp : parseSignature t line with
  | ok s => rw [hp] at h; cases h
  | error e =>
    rw [hp] at h
    cases e with
    | fuel => cases h
    | outOfBounds => rfl

/-- All of the parts.  The last one of the values keeps its backticks. -/
example : SignatureLine propertyTraits (str "id: `a`, `b` (string) - x")
    { identifier := str "id", value := str "a", values := [str "a", str "`b`"], attributes := [str "string"], content := str "x" } [] :=
  line_of usual_property (by decide +kernel) (by decide +kernel)

/-- An item without identifier. -/
example : SignatureLine valueTraits (str "a, b - c") { value := str "a, b", values := [str "a", str "b"], content := str "c" } [] :=
  line_of usual_value (by decide +kernel) (by decide +kernel)

/-- A parameter in the old syntax. -/
example : SignatureLine oldTraits (str "id = `1` ... x")
    { identifier := str "id", value := str "1", values := [str "`1`"], content := str "x" } [] :=
  line_of usual_old (by decide +kernel) (by decide +kernel)

/-- No identifier, no values. -/
example : SignatureLine propertyTraits (str ": (a)") { attributes := [str "a"] } [.noIdentifier, .noValues] :=
  line_of usual_property (by decide +kernel) (by decide +kernel)

/-- Attributes that are not closed. -/
example : SignatureLine propertyTraits (str "a (b") { identifier := str "a", attributes := [str "b"] } [] :=
  line_of usual_property (by decide +kernel) (by decide +kernel)

/-- Attributes that are torn. -/
example : TornLine propertyTraits (str "a (b,)") := torn_of usual_property (by decide +kernel)
example : TornLine propertyTraits (str "a ()") := torn_of usual_property (by decide +kernel)
example : TornLine propertyTraits (str "a (") := torn_of usual_property (by decide +kernel)
example : ∃ sig ws, SignatureLine propertyTraits (str "a (,b)") sig ws :=
  ⟨_, _, line_of (sig := { identifier := str "a", attributes := [str "b"] }) usual_property (by decide +kernel) rfl⟩

end Verif.Props
