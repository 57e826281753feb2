import Verif.Model.Section

/-!
# What a section processor must keep to, and what its parser then does

A processor may look at anything and change anything, but the node it hands back is never before
the one it was given nor past the end of the siblings, and whatever it pushes on the section
context it pops again.
-/

namespace Verif.Spec.Section
open Verif.Section

/-- A single step, begun at `i` with the context `context`, keeps to the rules: it comes back (with
a result or an exception), not before `i`, not past the end, with the context it was given. -/
def Step {σ : Type} (ns : List Node) (i : Nat) (context : List SectionType)
    (r : Except Stop (Nat × PD σ)) : Prop :=
  r ≠ .error .diverges ∧
    ∀ j pd, r = .ok (j, pd) → i ≤ j ∧ j ≤ ns.length ∧ pd.context = context

/-- The same for a step that does not move. -/
def Stay {σ : Type} (context : List SectionType) (r : Except Stop (PD σ)) : Prop :=
  r ≠ .error .diverges ∧ ∀ pd, r = .ok pd → pd.context = context

/-- The same for a step that may call the parser of another section. -/
def Answer {σ α : Type} (ns : List Node) (i : Nat) (context : List SectionType)
    (r : Except Stop (Reply σ α)) : Prop :=
  r ≠ .error .diverges ∧
    (∀ j x pd, r = .ok (.done j x pd) → i ≤ j ∧ j ≤ ns.length ∧ pd.context = context) ∧
    ∀ t pd, r = .ok (.enter t pd) → pd.context = context

/-- A processor that keeps to the rules. -/
structure Obeys {σ : Type} (o : Own σ) : Prop where
  signature : ∀ ns i pd, i ≤ ns.length → Answer ns i pd.context (o.signature ns i pd)
  description : ∀ ns i pd, i < ns.length → Step ns i pd.context (o.description ns i pd)
  content : ∀ ns i pd, i < ns.length → Step ns i pd.context (o.content ns i pd)
  preprocess : ∀ ns i pd, Stay pd.context (o.preprocess ns i pd)
  nested : ∀ ns i pd, i < ns.length → Answer ns i pd.context (o.nested ns i pd)
  entered : ∀ ns i t pd, Stay pd.context (o.entered ns i t pd)
  unexpected : ∀ ns i last pd, i < ns.length →
    Step ns i pd.context (o.unexpected ns i last pd)
  finalize : ∀ ns i pd, Stay pd.context (o.finalize ns i pd)

/-- All processors of a grammar keep to the rules. -/
def AllObey {σ : Type} : Grammar σ → Prop
  | .absent => True
  | .mk own _ child => Obeys own ∧ ∀ t, AllObey (child t)

end Verif.Spec.Section
