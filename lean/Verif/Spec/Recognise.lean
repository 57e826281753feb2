import Verif.Spec.Text

/-!
# The forms of headers and list items (specification)

What the API Blueprint format says the signature of a section looks like, in terms of texts only.
-/

namespace Verif.Spec.Recognition
open Verif Verif.Spec

/-- Blanks and tabs. -/
def Blanks (s : Bytes) : Prop := ∀ c ∈ s, c = 32 ∨ c = 9

/-- At least one blank or tab. -/
def Gap (s : Bytes) : Prop := s ≠ [] ∧ Blanks s

/-- The request methods of HTTP that are known. -/
def methods : List Bytes :=
  ["GET", "POST", "PUT", "DELETE", "OPTIONS", "PATCH", "PROPPATCH", "LOCK", "UNLOCK", "COPY", "MOVE", "MKCOL",
    "HEAD", "LINK", "UNLINK", "CONNECT"].map str

/-- The path of a URI, which starts with a slash. -/
def Path (u : Bytes) : Prop := ∃ r, u = asc '/' :: r

/-- A name: not empty and without brackets and parentheses. -/
def Name (n : Bytes) : Prop := n ≠ [] ∧ ∀ c ∈ n, c ≠ asc '[' ∧ c ≠ asc ']' ∧ c ≠ asc '(' ∧ c ≠ asc ')'

/-- The word, whose first letter may be a capital. -/
def Word (upper lower : Char) (tail : String) (w : Bytes) : Prop :=
  w = asc upper :: str tail ∨ w = asc lower :: str tail

/-- What is seen of a text: white space around it is removed; it ends before the first NUL. -/
def Seen (text s : Bytes) : Prop :=
  ∃ t, Trimmed text t ∧ 0 ∉ s ∧ (t = s ∨ ∃ r, t = s ++ 0 :: r)

/-- `s` is the first line of the text. -/
def FirstLine (text s : Bytes) : Prop := asc '\n' ∉ s ∧ (text = s ∨ ∃ r, text = s ++ asc '\n' :: r)

/-! ## Headers -/

/-- `METHOD` or `METHOD /uri`: the method and the URI. -/
def ActionLine (s m u : Bytes) : Prop :=
  ∃ a b, s = a ++ m ++ b ++ u ∧ Blanks a ∧ m ∈ methods ∧ Blanks b ∧ (u = [] ∨ Path u)

/-- `name [METHOD]` or `name [METHOD /uri]`: the name, the method and the URI. -/
def NamedActionLine (s n m u : Bytes) : Prop :=
  ∃ a b, s = a ++ n ++ asc '[' :: m ++ b ++ u ++ [asc ']'] ∧ Blanks a ∧ n ≠ [] ∧ m ∈ methods ∧ Blanks b ∧
    (u = [] ∨ Path u)

/-- `/uri` -/
def UriLine (s u : Bytes) : Prop := ∃ a, s = a ++ u ∧ Blanks a ∧ Path u

/-- `METHOD /uri` -/
def EndpointLine (s m u : Bytes) : Prop :=
  ∃ a b, s = a ++ m ++ b ++ u ∧ Blanks a ∧ m ∈ methods ∧ Gap b ∧ Path u

/-- `name [/uri]` -/
def NamedResourceLine (s n u : Bytes) : Prop :=
  ∃ a b, s = a ++ n ++ b ++ asc '[' :: u ++ [asc ']'] ∧ Blanks a ∧ Name n ∧ Gap b ∧ Path u

/-- `name [METHOD /uri]` -/
def NamedEndpointLine (s n m u : Bytes) : Prop :=
  ∃ a b c, s = a ++ n ++ b ++ asc '[' :: m ++ c ++ u ++ [asc ']'] ∧ Blanks a ∧ Name n ∧ Gap b ∧ m ∈ methods ∧
    Gap c ∧ Path u

/-- A resource in any of these forms. -/
def ResourceForm (s : Bytes) : Prop :=
  (∃ u, UriLine s u) ∨ (∃ m u, EndpointLine s m u) ∨ (∃ n u, NamedResourceLine s n u) ∨
    ∃ n m u, NamedEndpointLine s n m u

/-- An action in any of these forms. -/
def ActionForm (s : Bytes) : Prop := (∃ m u, ActionLine s m u) ∨ ∃ n m u, NamedActionLine s n m u

/-- `Group name` -/
def GroupLine (s n : Bytes) : Prop :=
  ∃ a w b c, s = a ++ w ++ b ++ n ++ c ∧ Blanks a ∧ Word 'G' 'g' "roup" w ∧ Gap b ∧ Name n ∧ Blanks c

/-- `Data Structures` or `Data Structure` -/
def DataLine (s : Bytes) : Prop :=
  ∃ a v b w c, s = a ++ v ++ b ++ w ++ c ∧ Blanks a ∧ Word 'D' 'd' "ata" v ∧ Gap b ∧
    (Word 'S' 's' "tructure" w ∨ Word 'S' 's' "tructures" w) ∧ Blanks c

/-- `name [METHOD text]`, where the text has no slash: a URI that is not absolute. -/
def RelativeLine (s : Bytes) : Prop :=
  ∃ a n m b u, s = a ++ n ++ asc '[' :: m ++ b ++ u ++ [asc ']'] ∧ Blanks a ∧ n ≠ [] ∧ m ∈ methods ∧ Gap b ∧
    u ≠ [] ∧ asc '/' ∉ u

/-! ## List items -/

/-- One word on its own. -/
def Keyword (P : Bytes → Prop) (s : Bytes) : Prop := ∃ a w b, s = a ++ w ++ b ∧ Blanks a ∧ P w ∧ Blanks b

/-- `Headers` or `Header` -/
def HeadersLine : Bytes → Prop := Keyword fun w => Word 'H' 'h' "eader" w ∨ Word 'H' 'h' "eaders" w
/-- `Parameters` or `Parameter` -/
def ParametersLine : Bytes → Prop := Keyword fun w => Word 'P' 'p' "arameter" w ∨ Word 'P' 'p' "arameters" w
/-- `Body` -/
def BodyLine : Bytes → Prop := Keyword (Word 'B' 'b' "ody")
/-- `Schema` -/
def SchemaLine : Bytes → Prop := Keyword (Word 'S' 's' "chema")
/-- `Values` -/
def ValuesLine : Bytes → Prop := Keyword (Word 'V' 'v' "alues")
/-- `Properties` -/
def PropertiesLine : Bytes → Prop := Keyword (Word 'P' 'p' "roperties")
/-- `Items` or `Members` -/
def ItemsLine : Bytes → Prop := Keyword fun w => Word 'I' 'i' "tems" w ∨ Word 'M' 'm' "embers" w
/-- `One of` -/
def OneOfLine (s : Bytes) : Prop :=
  ∃ a v b w c, s = a ++ v ++ b ++ w ++ c ∧ Blanks a ∧ Word 'O' 'o' "ne" v ∧ Gap b ∧ Word 'O' 'o' "f" w ∧ Blanks c
/-- `Default` or `Default: …` (and the same for other words) -/
def ColonLine (P : Bytes → Prop) (s : Bytes) : Prop :=
  ∃ a w b r, s = a ++ w ++ b ++ r ∧ Blanks a ∧ P w ∧ Blanks b ∧ (r = [] ∨ r.head? = some (asc ':'))
/-- `Default…` -/
def DefaultLine : Bytes → Prop := ColonLine (Word 'D' 'd' "efault")
/-- `Sample…` -/
def SampleLine : Bytes → Prop := ColonLine (Word 'S' 's' "ample")
/-- `Attributes` or `Attribute`, also with something in parentheses -/
def AttributesLine (s : Bytes) : Prop :=
  ∃ a w b r, s = a ++ w ++ b ++ r ∧ Blanks a ∧ (Word 'A' 'a' "ttribute" w ∨ Word 'A' 'a' "ttributes" w) ∧
    Blanks b ∧ (r = [] ∨ ∃ t, r = asc '(' :: t ++ [asc ')'])
/-- `Include …` -/
def MixinLine (s : Bytes) : Prop := ∃ a w b r, s = a ++ w ++ b ++ r ∧ Blanks a ∧ Word 'I' 'i' "nclude" w ∧ Gap b
/-- `Relation: …` -/
def RelationLine (s r : Bytes) : Prop :=
  ∃ a w b, s = a ++ w ++ b ++ asc ':' :: r ∧ Blanks a ∧ Word 'R' 'r' "elation" w ∧ Blanks b

/-! ## Payloads -/

/-- Nothing, or a media type in parentheses; a backslash or a parenthesis cannot be part of it. -/
def Media (s m : Bytes) : Prop :=
  (s = [] ∧ m = []) ∨ ∃ b, s = b ++ asc '(' :: m ++ [asc ')'] ∧ Blanks b ∧ ∀ c ∈ m, c ≠ asc ')' ∧ c ≠ asc '\\'

/-- `Response status (media type)`, where the status consists of digits and blanks. -/
def ResponseLine (s status m : Bytes) : Prop :=
  ∃ a w p b, s = a ++ w ++ status ++ p ++ b ∧ Blanks a ∧ Word 'R' 'r' "esponse" w ∧
    (∀ c ∈ status, c = 32 ∨ c = 9 ∨ (asc '0' ≤ c ∧ c ≤ asc '9')) ∧ Media p m ∧ Blanks b

/-- `Request name (media type)`; before the name, if any, there is a blank. -/
def RequestLine (s n m : Bytes) : Prop :=
  ∃ a w p b, s = a ++ w ++ n ++ p ++ b ∧ Blanks a ∧ Word 'R' 'r' "equest" w ∧
    (n = [] ∨ ∃ c t, n = c :: t ∧ (c = 32 ∨ c = 9) ∧ Name t) ∧ Media p m ∧ Blanks b

/-- `name Model (media type)` -/
def ModelLine (s n m : Bytes) : Prop :=
  ∃ a i w p b, s = a ++ i ++ w ++ p ++ b ∧ Blanks a ∧ ((i = [] ∧ n = []) ∨ ∃ g, i = n ++ g ∧ Name n ∧ Gap g) ∧
    Word 'M' 'm' "odel" w ∧ Media p m ∧ Blanks b

/-- A relation identifier: a lower case letter, then lower case letters, digits, `.` and `-`. -/
def Identifier (i : Bytes) : Prop :=
  ∃ c t, i = c :: t ∧ (asc 'a' ≤ c ∧ c ≤ asc 'z') ∧
    ∀ d ∈ t, (asc 'a' ≤ d ∧ d ≤ asc 'z') ∨ (asc '0' ≤ d ∧ d ≤ asc '9') ∨ d = asc '.' ∨ d = asc '-'

/-! ## Words that sections of lists start with -/

/-- The sections that a list item can start by a word of its own (a model has its word at the end). -/
inductive Item
  | headers | parameters | attributes | body | schema | values | oneOf | sampleDefault | valueMembers | propertyMembers
  | mixin | relation | request | response
  deriving DecidableEq, Repr

/-- `Request…` or `Response…`: only the word in front counts. -/
def StartsWith (P : Bytes → Prop) (s : Bytes) : Prop := ∃ a w r, s = a ++ w ++ r ∧ Blanks a ∧ P w

/-- The form of the first line of the item. -/
def Item.Form : Item → Bytes → Prop
  | .headers => HeadersLine
  | .parameters => ParametersLine
  | .attributes => AttributesLine
  | .body => BodyLine
  | .schema => SchemaLine
  | .values => ValuesLine
  | .oneOf => OneOfLine
  | .sampleDefault => fun s => DefaultLine s ∨ SampleLine s
  | .valueMembers => ItemsLine
  | .propertyMembers => PropertiesLine
  | .mixin => MixinLine
  | .relation => fun s => ∃ r, RelationLine s r
  | .request => StartsWith (Word 'R' 'r' "equest")
  | .response => StartsWith (Word 'R' 'r' "esponse")

end Verif.Spec.Recognition
