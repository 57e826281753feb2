import Verif.Spec.Signature
import Verif.Model.MsonParser

/-!
# The first line of a list item (specification)

Its parts: `identifier: values (attributes) - content`, as far as the kind of the item has them.
-/

namespace Verif.Spec.SignatureLine
open Verif Verif.Text Verif.Spec
open Verif.Signature (Traits Signature)

/-! ## Marks: backticks, asterisks, underscores -/

/-- `p` is text in marks at the beginning of `p ++ s`: some of the same mark, text, and, as soon as they come, as many marks again. -/
def Marked (c : UInt8) (p inner s : Bytes) : Prop :=
  ∃ n, 0 < n ∧ p = List.replicate n c ++ inner ++ List.replicate n c ∧ inner ≠ [] ∧ inner.head? ≠ some c ∧
    ∀ x y, inner ++ List.replicate n c ++ s = x ++ List.replicate n c ++ y → inner.length ≤ x.length

/-- A mark before `s` that begins no text in marks. -/
def Stray (c : UInt8) (s : Bytes) : Prop :=
  ∃ n u, c :: s = List.replicate n c ++ u ∧ 0 < n ∧ u.head? ≠ some c ∧ ∀ x y, u ≠ x ++ List.replicate n c ++ y

/-- The text without the backticks around it. -/
inductive Stripped : Bytes → Bytes → Prop
  | bare {s} : s.head? ≠ some (asc '`') ∨ s.getLast? ≠ some (asc '`') → Stripped s s
  | stray {s} : Stray (asc '`') s → Stripped (asc '`' :: s) (asc '`' :: s)
  | marked {p t s u} : Marked (asc '`') p t s → (p ++ s).getLast? = some (asc '`') → Trimmed t u → Stripped (p ++ s) u

/-- Text up to a place where it ends, outside of these marks. -/
inductive UpTo (marks : Bytes) (Ends : Bytes → Prop) : Bytes → Bytes → Bytes → Prop
  | over : UpTo marks Ends [] [] []
  | ends {c s} : c ∉ marks → Ends (c :: s) → UpTo marks Ends (c :: s) [] (c :: s)
  | plain {c s v r} : c ∉ marks → ¬ Ends (c :: s) → UpTo marks Ends s v r → UpTo marks Ends (c :: s) (c :: v) r
  | stray {c s v r} : c ∈ marks → Stray c s → UpTo marks Ends s v r → UpTo marks Ends (c :: s) (c :: v) r
  | marked {c p t s v r} : c ∈ marks → Marked c p t s → UpTo marks Ends s v r → UpTo marks Ends (p ++ s) (p ++ v) r

/-! ## Brackets -/

/-- A bracket and the one that closes it. -/
def Pair (o c : UInt8) : Prop := (o = asc '(' ∧ c = asc ')') ∨ (o = asc '[' ∧ c = asc ']')

/-- Reading `s` up to one of the `stops`, outside of backticks and brackets: what is read before it; the stop and what is left behind it, if
there is one; and what is behind the last text in backticks or brackets, if there is one before it. -/
inductive Scan : Bytes → Bytes → Bytes → Option (UInt8 × Bytes) → Option Bytes → Prop
  | stop {stops c s} : c ∈ stops → Scan stops (c :: s) [] (some (c, s)) none
  | over {stops} : Scan stops [] [] none none
  | plain {stops c s m r t} : c ≠ asc '`' → c ≠ asc '(' → c ≠ asc '[' → c ∉ stops → Scan stops s m r t → Scan stops (c :: s) (c :: m) r t
  | stray {stops s m r t} : Stray (asc '`') s → Scan stops s m r t → Scan stops (asc '`' :: s) (asc '`' :: m) r t
  | marked {stops p i s m r t} : Marked (asc '`') p i s → Scan stops s m r t → Scan stops (p ++ s) (p ++ m) r (some (t.getD s))
  | nested {stops o c s m' s' t' m r t} : Pair o c → Scan [c] s m' (some (c, s')) t' → Scan stops s' m r t →
      Scan stops (o :: s) (o :: m' ++ c :: m) r (some (t.getD s'))
  | nestedOpen {stops o c s m' t'} : Pair o c → Scan [c] s m' none t' → Scan stops (o :: s) (o :: m') none (some [])

/-! ## The parts -/

/-- The identifier, and what is behind it. -/
inductive IdentifierPart (t : Traits) (line : Bytes) : Bytes → Bytes → List MsonParser.Warning → Prop
  | no : t.identifier = false ∨ line = [] → IdentifierPart t line [] line []
  | yes {l i r id s} : t.identifier = true → line ≠ [] → Trimmed line l → UpTo (str "*_`") (Stops t) l i r → Trimmed i id → Trimmed r s → id ≠ [] →
      IdentifierPart t line id s []
  | blank {l i r s} : t.identifier = true → line ≠ [] → Trimmed line l → UpTo (str "*_`") (Stops t) l i r → Trimmed i [] → Trimmed r s →
      IdentifierPart t line [] s [.noIdentifier]

/-- A comma, or a delimiter after the values. -/
def ValueEnds (t : Traits) (s : Bytes) : Prop := s.head? = some (asc ',') ∨ Stops { t with values := false } s

/-- Values with commas between them, and what is behind them. -/
inductive ValueList (t : Traits) : Bytes → List Bytes → Bytes → Prop
  | more {s v v' u s' s'' vs r} : UpTo (str "`") (ValueEnds t) s v (asc ',' :: s') → Trimmed v v' → Stripped v' u → Trimmed s' s'' →
      ValueList t s'' vs r → ValueList t s (u :: vs) r
  | last {s v v' r} : UpTo (str "`") (ValueEnds t) s v r → r.head? ≠ some (asc ',') → Trimmed v v' → v' ≠ [] → ValueList t s [v'] r
  | none {s v r} : UpTo (str "`") (ValueEnds t) s v r → r.head? ≠ some (asc ',') → Trimmed v [] → ValueList t s [] r

/-- What is behind the delimiter of the values.  A kind of item without identifier needs no delimiter. -/
inductive ValuesFollow (t : Traits) : Bytes → Bytes → Prop
  | delimited {s} : t.values = true → t.identifier = true → ValuesFollow t (t.valuesDelimiter :: s) s
  | bare {s} : t.values = true → t.identifier = false → s ≠ [] → s.head? ≠ some (asc '(') → ValuesFollow t s s

/-- The text of the values, the values, and what is behind them. -/
inductive ValuesPart (t : Traits) (s : Bytes) : Bytes → List Bytes → Bytes → List MsonParser.Warning → Prop
  | no : (∀ b, ¬ ValuesFollow t s b) → ValuesPart t s [] [] s []
  | yes {b b' x x' v vs r r'} : ValuesFollow t s b → Trimmed b b' → ValueList t b' vs r → Trimmed r r' → b' = x ++ r' → Trimmed x x' →
      Stripped x' v → vs ≠ [] → ValuesPart t s v vs r' []
  | blank {b b' x x' v r r'} : ValuesFollow t s b → Trimmed b b' → ValueList t b' [] r → Trimmed r r' → b' = x ++ r' → Trimmed x x' →
      Stripped x' v → ValuesPart t s v [] r' [.noValues]

/-- An attribute, if it is not blank. -/
inductive Attribute : Bytes → List Bytes → Prop
  | yes {m a} : Trimmed m a → a ≠ [] → Attribute m [a]
  | blank {m} : Trimmed m [] → Attribute m []

/-- The attributes behind the opening bracket, and what counts as the text behind them.  Brackets with nothing between the last comma and
the closing bracket, or the end, are none of these. -/
inductive AttributeList : Bytes → List Bytes → Bytes → Prop
  | more {s m s' t a as r} : Scan (str "),") s m (some (asc ',', s')) t → Attribute m a → AttributeList s' as r → AttributeList s (a ++ as) r
  | closed {s m s' t a} : Scan (str "),") s m (some (asc ')', s')) t → m ≠ [] → Attribute m a → AttributeList s a s'
  | unclosed {s m t a} : Scan (str "),") s m none t → m ≠ [] → m.getLast? ≠ some (asc ',') → Attribute m a →
      AttributeList s a (t.getD (asc '(' :: s))

/-- Attributes that end with nothing between the last comma and the closing bracket, or the end. -/
inductive Torn : Bytes → Prop
  | more {s m s' t} : Scan (str "),") s m (some (asc ',', s')) t → Torn s' → Torn s
  | closed {s s' t} : Scan (str "),") s [] (some (asc ')', s')) t → Torn s
  | over {s t} : Scan (str "),") s [] none t → Torn s
  | comma {s m t} : Scan (str "),") s m none t → m.getLast? = some (asc ',') → Torn s

/-- The attributes, and what is behind them. -/
inductive AttributesPart (t : Traits) (s : Bytes) : List Bytes → Bytes → Prop
  | no : t.attributes = false ∨ s.head? ≠ some (asc '(') → AttributesPart t s [] s
  | yes {b as r r'} : t.attributes = true → s = asc '(' :: b → AttributeList b as r → Trimmed r r' → AttributesPart t s as r'

/-- The content. -/
inductive ContentPart (t : Traits) (s : Bytes) : Bytes → Prop
  | yes {b c} : t.content = true → s = t.contentDelimiter ++ b → Trimmed b c → ContentPart t s c
  | no : t.content = false ∨ ¬ t.contentDelimiter <+: s → ContentPart t s []

/-- The parts of a line, and what is reported. -/
def SignatureLine (t : Traits) (line : Bytes) (sig : Signature) (ws : List MsonParser.Warning) : Prop :=
  ∃ s₁ s₂ s₃ w₁ w₂, IdentifierPart t line sig.identifier s₁ w₁ ∧ ValuesPart t s₁ sig.value sig.values s₂ w₂ ∧
    AttributesPart t s₂ sig.attributes s₃ ∧ ContentPart t s₃ sig.content ∧ sig.remainingContent = [] ∧ ws = w₁ ++ w₂

/-- The attributes of a line are torn. -/
def TornLine (t : Traits) (line : Bytes) : Prop :=
  ∃ id s₁ w₁ v vs b w₂, IdentifierPart t line id s₁ w₁ ∧ ValuesPart t s₁ v vs (asc '(' :: b) w₂ ∧ t.attributes = true ∧ Torn b

/-- The delimiters of the items of an API description. -/
def Usual (t : Traits) : Prop :=
  (t.valuesDelimiter = asc ':' ∨ t.valuesDelimiter = asc '=') ∧ (t.contentDelimiter = str "-" ∨ t.contentDelimiter = str "...")

instance (t : Traits) : Decidable (Usual t) := inferInstanceAs (Decidable (_ ∧ _))

end Verif.Spec.SignatureLine
