import Verif.Model.Blueprint
import Verif.Spec.Section

/-!
# What is asked of the parsers that the document's parser calls
-/

namespace Verif.Spec.Section
open Verif.Section

/-- The parsers of list-defined sections and of named types keep to the rules. -/
structure OthersObey {σ : Type} (x : Others σ) : Prop where
  ofResource : ∀ t, AllObey (x.ofResource t)
  ofAction : ∀ t, AllObey (x.ofAction t)
  namedType : AllObey x.namedType

/-- They also raise no exception, when they are called at a node of the kind they are made for. -/
structure OthersReturn {σ : Type} (x : Others σ) : Prop where
  ofResource : ∀ t ns i (pd : PD σ) n, ns[i]? = some n → n.kind = .listItem →
    ∀ e, (x.ofResource t).parse ns i pd ≠ .error e
  ofAction : ∀ t ns i (pd : PD σ) n, ns[i]? = some n → n.kind = .listItem →
    ∀ e, (x.ofAction t).parse ns i pd ≠ .error e
  namedType : ∀ ns i (pd : PD σ) n, ns[i]? = some n → n.kind = .header →
    ∀ e, x.namedType.parse ns i pd ≠ .error e

/-! ## Which blocks are read -/

/-- A way to watch the parser: whenever a block is read as metadata, as the signature or the
description of a section, or reported as unexpected, its position is written down. -/
def recorder : Handlers (List Nat) where
  metadata _ i pd := pd.data ++ [i]
  abbreviated _ _ pd := pd.data
  signature _ _ i pd := pd.data ++ [i]
  description _ _ i pd := pd.data ++ [i]
  preprocess _ _ _ pd := pd.data
  entered _ _ _ _ pd := pd.data
  unexpected _ _ i _ pd := pd.data ++ [i]
  finalize _ _ _ pd := pd.data

/-- A parser that reads every block from where it is called to where it stops, once and in order. -/
def ReadsOnce (p : Parse (List Nat)) : Prop :=
  ∀ ns i pd j q, p ns i pd = .ok (j, q) → i ≤ j ∧ q.data = pd.data ++ List.range' i (j - i)

/-- The parsers of list-defined sections and of named types do. -/
structure OthersReadOnce (x : Others (List Nat)) : Prop where
  ofResource : ∀ t, ReadsOnce (x.ofResource t).parse
  ofAction : ∀ t, ReadsOnce (x.ofAction t).parse
  namedType : ReadsOnce x.namedType.parse

end Verif.Spec.Section
