import Verif.Model.Utf8
/-!
# Line and column numbers: packages/drafter/src/SourceMapUtils.{h,cc}
-/
namespace Verif.Lines
open Verif Verif.Utf8

/-- Loop of `GetLinesEndIndex`, SourceMapUtils.cc:62-66: the (1-based) numbers of the code points that are newlines. -/
def newlineIdx : Nat → List Nat → List Nat
  | _, [] => []
  | i, c :: r => if c = 10 then i :: newlineIdx (i + 1) r else newlineIdx (i + 1) r

/-- `GetLinesEndIndex`, SourceMapUtils.cc:52-69. -/
def linesEndIndex (source : Bytes) : List Nat := 0 :: newlineIdx 1 (decodeAll source)

/-- `AnnotationPosition`, SourceMapUtils.h:20-25. -/
structure Pos where
  fromLine : Nat := 0
  fromColumn : Nat := 0
  toLine : Nat := 0
  toColumn : Nat := 0
deriving Repr, DecidableEq

/-- `std::upper_bound` on a sorted vector: offset of the first element greater than `v`. -/
def upperBound (l : List Nat) (v : Nat) : Nat := (l.takeWhile (· ≤ v)).length

/-- `std::lower_bound` on a sorted vector: offset of the first element not less than `v`. -/
def lowerBound (l : List Nat) (v : Nat) : Nat := (l.takeWhile (· < v)).length

/-- `*std::prev(it)` where `it` is at the given offset; `none` is the undefined behaviour at offset 0. -/
def derefPrev (l : List Nat) (off : Nat) : Option Nat := if off = 0 then none else l[off - 1]?

/-- The from-part of `GetLineFromMap`, SourceMapUtils.cc:19-24. -/
def startPos (idx : List Nat) (loc : Nat) : Option (Nat × Nat) :=
  let u := upperBound idx loc
  if u ≠ idx.length then (derefPrev idx u).map fun x => (u, loc - x + 1) else some (0, 0)

/-- The to-part of `GetLineFromMap`, SourceMapUtils.cc:27-47; `e` is `range.location + range.length`. -/
def endPos (idx : List Nat) (e : Nat) : Option (Nat × Nat) :=
  let b := lowerBound idx e
  if idx.getLastD 0 < e then some (idx.length, 1)
  else if b ≠ idx.length then (derefPrev idx b).map fun x => (b, e - x) else some (0, 0)

/-- `GetLineFromMap`, SourceMapUtils.cc:11-50; `none` is undefined behaviour. -/
def getLineFromMap (idx : List Nat) (loc len : Nat) : Option Pos :=
  if idx.isEmpty then some {}
  else do
    let s ← startPos idx loc
    let t ← endPos idx (loc + len)
    some { fromLine := s.1, fromColumn := s.2, toLine := t.1, toColumn := t.2 }

end Verif.Lines
