import Verif.Model.Bytes
/-!
# UTF-8 codec: packages/drafter/src/utils/Utf8.h

An iterator pair `[first,last)` is the list of remaining octets.  `std::uint32_t` arithmetic is done in `Nat`: every
intermediate value is below 2^21, so nothing wraps.
-/
namespace Verif.Utf8
open Verif

/-- `replacement`, Utf8.h:27. -/
def replacement : Nat := 0xFFFD
/-- `invalid`, Utf8.h:28. -/
def invalid : Nat := 0xFFFFFFFF

/-- `decode_one`, Utf8.h:40-100, with each access `first[i]` checked: `none` stands for a read past the end. -/
def decodeOneChk (s : Bytes) : Option (Nat × Bytes) :=
  if s.isEmpty then some (invalid, []) else do
  let cp := (← s[0]?).toNat
  if cp < 0x80 then some (cp, s.drop 1)
  else if cp < 0xE0 then
    if s.length < 2 then some (replacement, [])
    else do
      let result := ((cp &&& 0x1F) <<< 6) ||| ((← s[1]?).toNat &&& 0x3F)
      some (if result < 0x80 then replacement else result, s.drop 2)
  else if cp < 0xF0 then
    if s.length < 3 then some (replacement, [])
    else do
      let result := ((cp &&& 0x0F) <<< 12) ||| (((← s[1]?).toNat &&& 0x3F) <<< 6) ||| ((← s[2]?).toNat &&& 0x3F)
      if result ≥ 0xD800 ∧ result ≤ 0xDFFF then some (replacement, s.drop 3)
      else some (if result < 0x800 then replacement else result, s.drop 3)
  else
    if s.length < 4 then some (replacement, [])
    else do
      let result := ((cp &&& 0x07) <<< 18) ||| (((← s[1]?).toNat &&& 0x3F) <<< 12) ||| (((← s[2]?).toNat &&& 0x3F) <<< 6)
        ||| ((← s[3]?).toNat &&& 0x3F)
      if result < 0x10000 then some (replacement, s.drop 4)
      else if result > 0x10FFFF then some (replacement, s.drop 4)
      else some (result, s.drop 4)

/-- `decode_one`, Utf8.h:40-100, in pattern-matching form (same function, see `decodeOneChk_eq`). -/
def decodeOne : Bytes → Nat × Bytes
  | [] => (invalid, [])
  | a :: r =>
    if a < 0x80 then (a.toNat, r)
    else if a < 0xE0 then
      match r with
      | b :: r =>
        let result := (a.toNat % 32) * 64 + b.toNat % 64
        (if result < 0x80 then replacement else result, r)
      | _ => (replacement, [])
    else if a < 0xF0 then
      match r with
      | b :: c :: r =>
        let result := (a.toNat % 16) * 4096 + (b.toNat % 64) * 64 + c.toNat % 64
        (if 0xD800 ≤ result ∧ result ≤ 0xDFFF then replacement else if result < 0x800 then replacement else result, r)
      | _ => (replacement, [])
    else
      match r with
      | b :: c :: d :: r =>
        let result := (a.toNat % 8) * 262144 + (b.toNat % 64) * 4096 + (c.toNat % 64) * 64 + d.toNat % 64
        (if result < 0x10000 then replacement else if result > 0x10FFFF then replacement else result, r)
      | _ => (replacement, [])

theorem decodeOne_length (a : UInt8) (r : Bytes) : (decodeOne (a :: r)).2.length < (a :: r).length := by
  simp only [decodeOne]
  split
  · simp
  · split
    · split <;> simp <;> omega
    · split
      · split <;> simp <;> omega
      · split <;> simp <;> omega

/-- The sequence enumerated by `input_iterator`, Utf8.h:191-266, from the begin to the `{e,e}` end iterator
    (`p == end` holds exactly when nothing is left, because only then is the code point `invalid`). -/
def decodeAll (s : Bytes) : List Nat :=
  match s with
  | [] => []
  | a :: r => (decodeOne (a :: r)).1 :: decodeAll (decodeOne (a :: r)).2
termination_by s.length
decreasing_by exact decodeOne_length a r

/-- `encode`, Utf8.h:110-182; `none` is the `assert(false)` of line 179. -/
def encode (c : Nat) : Option Bytes :=
  if c < 0x80 then some [c.toUInt8]
  else if c < 0x800 then
    some [(((c >>> 6) &&& 0x1F) ||| 0xC0).toUInt8, ((c &&& 0x3F) ||| 0x80).toUInt8]
  else if c < 0x10000 then
    some [(((c >>> 12) &&& 0x0F) ||| 0xE0).toUInt8, (((c >>> 6) &&& 0x3F) ||| 0x80).toUInt8, ((c &&& 0x3F) ||| 0x80).toUInt8]
  else if c < 0x110000 then
    some [(((c >>> 18) &&& 0x07) ||| 0xF0).toUInt8, (((c >>> 12) &&& 0x3F) ||| 0x80).toUInt8,
      (((c >>> 6) &&& 0x3F) ||| 0x80).toUInt8, ((c &&& 0x3F) ||| 0x80).toUInt8]
  else none

end Verif.Utf8
