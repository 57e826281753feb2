/-!
# Bytes

`std::string` is modelled as a list of octets (`char` values reinterpreted as `unsigned char`).
The helpers below only build constants; they do not model any C++ code.
-/
namespace Verif

/-- A C++ `std::string` / `mdp::ByteBuffer`: a sequence of octets. -/
abbrev Bytes := List UInt8

/-- Octet of an ASCII character constant such as `'a'`. -/
def asc (c : Char) : UInt8 := c.toNat.toUInt8

/-- Octets of an ASCII string constant such as `"null"`. -/
def str (s : String) : Bytes := s.toList.map asc

/-- To prove something of all octets it suffices to check the 256 values. -/
theorem forallU8 {P : UInt8 → Prop} (h : ∀ n : Fin 256, P (UInt8.ofFin n)) : ∀ b, P b := by
  intro b; have := h b.toFin; simpa using this

end Verif
