/-!
# Lines and columns of a text (specification)

Positions are offsets into the sequence of code points; lines and columns are counted from 1; a newline belongs to the
line it ends.
-/
namespace Verif.Spec

/-- Line of the character at offset `p`: one more than the number of newlines before it. -/
def lineOf (cs : List Nat) (p : Nat) : Nat := (cs.take p).count 10 + 1

/-- Column of the character at offset `p`: one more than the number of characters between it and the closest newline
    before it (or the beginning). -/
def columnOf (cs : List Nat) (p : Nat) : Nat := ((cs.take p).reverse.takeWhile (fun c => c ≠ 10)).length + 1

/-- There is a newline at or after offset `p`. -/
def NewlineFrom (cs : List Nat) (p : Nat) : Prop := 10 ∈ cs.drop p

end Verif.Spec
