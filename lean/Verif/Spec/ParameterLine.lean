import Verif.Model.ParametersParser
import Verif.Spec.Recognise
import Verif.Spec.SignatureLine

/-!
# The first line of a parameter (specification)

Which of the two syntaxes a line is in.
-/

namespace Verif.Spec.ParameterLine
open Verif Verif.Text Verif.Spec
open Verif.Spec.SignatureLine (Scan)
open Verif.ParametersParser (Syntax)

/-! ## The name -/

/-- A hexadecimal digit. -/
def Hex (c : UInt8) : Prop := (asc 'A' ≤ c ∧ c ≤ asc 'F') ∨ (asc 'a' ≤ c ∧ c ≤ asc 'f') ∨ (asc '0' ≤ c ∧ c ≤ asc '9')

/-- A letter, a digit, `_`, `.` or `-`. -/
def NameChar (c : UInt8) : Prop :=
  (asc '0' ≤ c ∧ c ≤ asc '9') ∨ (asc 'A' ≤ c ∧ c ≤ asc 'Z') ∨ (asc 'a' ≤ c ∧ c ≤ asc 'z') ∨ c = asc '_' ∨ c = asc '.' ∨ c = asc '-'

/-- Name characters and percent-encoded ones. -/
inductive Word : Bytes → Prop
  | nil : Word []
  | char {c s} : NameChar c → Word s → Word (c :: s)
  | percent {a b s} : Hex a → Hex b → Word s → Word (asc '%' :: a :: b :: s)

/-- Perhaps a backtick. -/
def Tick (s : Bytes) : Prop := s = [] ∨ s = [asc '`']

/-- A name, with or without backticks, and blanks. -/
def NameText (p : Bytes) : Prop := ∃ a b c d, p = a ++ b ++ c ++ d ∧ Tick a ∧ Word b ∧ Tick c ∧ ∀ x ∈ d, x = asc ' ' ∨ x = asc '\t'

/-- The name that `s` begins with. -/
def Named (s p rest : Bytes) : Prop :=
  s = p ++ rest ∧ NameText p ∧ p ≠ [] ∧ ∀ p' rest', s = p' ++ rest' → NameText p' → p'.length ≤ p.length

/-! ## Brackets -/

/-- The traits, with the brackets, and what counts as the text behind them.  If they are not closed this is what is behind the last text
in backticks or brackets in them. -/
inductive Traits : Bytes → Bytes → Bytes → Prop
  | closed {s m r t} : Scan (str ")") s m (some (asc ')', r)) t → Traits (asc '(' :: s) (asc '(' :: m ++ [asc ')']) r
  | unclosed {s m t} : Scan (str ")") s m none (some t) → Traits (asc '(' :: s) (asc '(' :: m) t

/-- Traits that count: there is something in the brackets, and the text is not twice the same. -/
def Counts (s inner behind : Bytes) : Prop := Traits s inner behind ∧ inner.length ≠ 2 ∧ inner ≠ behind

/-- The part of the text before a NUL. -/
def BeforeNul (t s : Bytes) : Prop := 0 ∉ s ∧ (t = s ∨ ∃ r, t = s ++ 0 :: r)

/-- `enum[…]` -/
def HasEnum (t : Bytes) : Prop :=
  ∃ s x v y, BeforeNul t s ∧ s = x ++ str "enum[" ++ v ++ asc ']' :: y ∧ v ≠ [] ∧ ∀ c ∈ v, c ≠ asc '[' ∧ c ≠ asc ']'

/-- A backtick. -/
def HasTick (t : Bytes) : Prop := ∃ s, BeforeNul t s ∧ asc '`' ∈ s

/-! ## What stands behind the name -/

/-- The description. -/
inductive Describes : Bytes → Syntax → Prop
  | new {s} : Describes (asc '-' :: s) .new
  | old {s} : Describes (asc '.' :: asc '.' :: asc '.' :: s) .old

/-- What stands behind the name. -/
inductive Tells : Bytes → Syntax → Prop
  | nothing : Tells [] .new
  | sample {s} : ¬ Trimmed s [] → Tells (asc ':' :: s) .new
  | default {s} : ¬ Trimmed s [] → Tells (asc '=' :: s) .old
  | enum {s inner behind} : Counts s inner behind → HasEnum (inner.drop 1) → Tells s .new
  | ticks {s inner behind} : Counts s inner behind → ¬ HasEnum (inner.drop 1) → HasTick (inner.drop 1) → Tells s .old
  | traits {s inner behind} : Counts s inner behind → ¬ HasEnum (inner.drop 1) → ¬ HasTick (inner.drop 1) → Trimmed behind [] → Tells s .new
  | described {s inner behind t x} : Counts s inner behind → ¬ HasEnum (inner.drop 1) → ¬ HasTick (inner.drop 1) → Trimmed behind t →
      Describes t x → Tells s x
  | description {s x} : Describes s x → Tells s x

/-- The line is in this syntax. -/
def LineTells (line : Bytes) (x : Syntax) : Prop := ∃ s p rest u, Trimmed line s ∧ Named s p rest ∧ Trimmed rest u ∧ Tells u x

end Verif.Spec.ParameterLine
