import Verif.Model.Bytes
/-!
# Byte buffers, ranges and character indices: packages/apib-parser/src/markdown-parser/ByteBuffer.{h,cc}

`size_t` is unbounded except where a comment says so.  `none` is undefined behaviour (access outside a buffer).
-/
namespace Verif.ByteBuffer
open Verif

/-- `mdp::Range`, ByteBuffer.h:31-36. -/
structure Range where
  location : Nat
  length : Nat
deriving Repr, DecidableEq

/-- `RangeSet::append`, ByteBuffer.h:50-64. -/
def append (this val : List Range) : List Range :=
  match val with
  | [] => this
  | v :: vs =>
    match this.getLast? with
    | none => this ++ v :: vs
    | some b =>
      if v.location ≠ b.location + b.length then this ++ v :: vs
      else this.dropLast ++ { b with length := b.length + v.length } :: vs

/-- `UTF8_CHAR_LEN`, ByteBuffer.cc:14. -/
def charLen (b : UInt8) : Nat := ((0xE5000000 >>> ((b.toNat >>> 3) &&& 0x1e)) &&& 3) + 1

/-- Loop of `strnlen_utf8`, ByteBuffer.cc:23-26.  The first list is what is left of the C string *including* its
    terminator, so reading beyond it is `none`; `len` is what is left of the length (`len - i`, 0 if `i ≥ len`).
    The test order is that of the code: the octet is read before the length is compared. -/
def strnlenLoop (s : Bytes) (len : Nat) (j : Nat) : Option Nat :=
  match s with
  | [] => none
  | b :: r =>
    if b ≠ 0 ∧ len > 0 then
      strnlenLoop (r.drop (charLen b - 1)) (len - charLen b) (j + 1)
    else some j
termination_by s.length
decreasing_by simp; omega

/-- `strnlen_utf8`, ByteBuffer.cc:17-28, on the C string of `s` (that is, `s` and its terminator). -/
def strnlenUtf8 (s : Bytes) (len : Nat) : Option Nat :=
  if len = 0 then some 0 else strnlenLoop (s ++ [0]) len 0

/-- `BytesRangeToCharactersRange(const BytesRange&, const ByteBuffer&)`, ByteBuffer.cc:31-53 (`workRange` is computed
    but never used there; a location beyond the terminator is out of bounds). -/
def toCharactersByBuffer (r : Range) (buf : Bytes) : Option Range :=
  if buf.isEmpty then some ⟨0, 0⟩
  else
    (if r.location > 0 then strnlenUtf8 buf r.location else some 0).bind fun loc =>
    (if r.length > 0 then
        (if r.location > buf.length then none else strnlenUtf8 (buf.drop r.location) r.length) else some 0).bind fun len =>
    some ⟨loc, len⟩

/-- Loop of `BuildCharacterIndex`, ByteBuffer.cc:98-108, producing the index from the current position on.
    The vector was resized to the length of the source (zero-filled), and the positions are written in increasing
    order, so writing it is the same as producing it; a write beyond the end of the vector is `none`. -/
def buildLoop (s : Bytes) (charPos : Nat) : Option (List Nat) :=
  match s with
  | [] => some []
  | b :: r =>
    if b = 0 then some (List.replicate (r.length + 1) 0)
    else if r.length + 1 < charLen b then none
    else (buildLoop (r.drop (charLen b - 1)) (charPos + 1)).map fun t => List.replicate (charLen b) charPos ++ t
termination_by s.length
decreasing_by simp; omega

/-- `BuildCharacterIndex`, ByteBuffer.cc:88-109. -/
def buildCharacterIndex (s : Bytes) : Option (List Nat) := buildLoop s 0

/-- `BytesRangeToCharactersRange(const BytesRange&, const ByteBufferCharacterIndex&)`, ByteBuffer.cc:55-86.
    In lines 64 and 77 the unsigned subtraction may wrap: line 77 computes `last - (loc - 1)`, which modulo 2^64 is
    `last + 1 - loc` also when `loc` is 0; line 64 wraps only if `location` is beyond the index, and then the read at
    line 69 is out of bounds. -/
def toCharactersByIndex (r : Range) (index : List Nat) : Option Range :=
  if index.isEmpty then some ⟨0, 0⟩
  else
    let length := if r.location + r.length > index.length then index.length - r.location else r.length
    (if r.location > 0 then index[r.location]? else some 0).bind fun loc =>
    (if length > 0 then
        (if r.location + length ≥ index.length then (index[index.length - 1]?).map (fun last => last + 1 - loc)
         else (index[r.location + length]?).map (fun x => x - loc))
      else some 0).bind fun len =>
    some ⟨loc, len⟩

/-- `BytesRangeSetToCharactersRangeSet(const BytesRangeSet&, const ByteBufferCharacterIndex&)`, ByteBuffer.cc:123-134. -/
def rangesToCharacters (rs : List Range) (index : List Nat) : Option (List Range) := rs.mapM (toCharactersByIndex · index)

/-- Loop of `MapBytesRangeSet`, ByteBuffer.cc:164-178; the accumulator is the string stream. -/
def mapLoop (buf : Bytes) : List Range → Bytes → Bytes
  | [], acc => acc
  | r :: rs, acc =>
    if r.location + r.length > buf.length then
      (if r.location + r.length - buf.length = 1 then acc ++ (buf.drop r.location).take (buf.length - r.location) else [])
    else mapLoop buf rs (acc ++ (buf.drop r.location).take r.length)

/-- `MapBytesRangeSet`, ByteBuffer.cc:157-181. (`substr` throws when `location > length`; that needs
    `location = length + 1` and `length = 0` here and is not modelled.) -/
def mapBytesRangeSet (rs : List Range) (buf : Bytes) : Bytes := if buf.isEmpty then [] else mapLoop buf rs []

end Verif.ByteBuffer
