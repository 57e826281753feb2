import Verif.Model.DataStructure
import Verif.Spec.Registry
import Verif.Spec.Elements
import Verif.Spec.Number
import Mathlib.Data.List.Forall2
/-!
# From MSON to API Elements (specification)
-/
namespace Verif.Spec.DataStructure
open Verif Verif.Refract Verif.Registry Verif.DataStructure
open Verif.NamedTypes (BaseName TypeName)
open Verif.Mson (Value TypeDef TypeSpec ValueDef PropertyName)

/-! ## Elements -/

/-- A text. -/
def text (s : Bytes) : Elem := .mk (str "string") [] [] true (.string s)
/-- A list of elements. -/
def list (es : List Elem) : Elem := .mk (str "array") [] [] true (.array es)
/-- A list of elements as an attribute, which is left out if it has no elements. -/
def listed (es : List Elem) : Option Elem := if es = [] then none else some (list es)
/-- The attribute of an element. -/
def attr (e : Elem) (k : String) : Option Elem := Infos.find e.attributes (str k)

/-- The words for the types. -/
def word : BaseName → Bytes
  | .boolean => str "boolean" | .string => str "string" | .number => str "number" | .array => str "array" | .enum => str "enum"
  | .object => str "object"

/-- The element of a type that has no content. -/
def emptyOf : BaseName → Elem
  | .boolean => .mk (str "boolean") [] [] false (.boolean false)
  | .string => .mk (str "string") [] [] false (.string [])
  | .number => .mk (str "number") [] [] false (.number (str "0"))
  | .array => .mk (str "array") [] [] false (.array [])
  | .enum => .mk (str "enum") [] [] false (.enum none)
  | .object => .mk (str "object") [] [] false (.object [])

/-- The element is of the type. -/
def Is : BaseName → Elem → Prop
  | .boolean, e => ∃ b, e.data = .boolean b
  | .string, e => ∃ s, e.data = .string s
  | .number, e => ∃ s, e.data = .number s
  | .array, e => ∃ l, e.data = .array l
  | .enum, e => ∃ o, e.data = .enum o
  | .object, e => ∃ l, e.data = .object l

/-- The types that hold a text. -/
def Primitive (t : BaseName) : Prop := t = .boolean ∨ t = .string ∨ t = .number

/-- The value of a member: that of a property, or the element itself. -/
def theValue (e : Elem) : Option Elem :=
  match e.data with
  | .member _ v => v
  | _ => some e

/-! ## Flags -/

/-- The flags of a type that are shown, in their order, by the words they are shown with; a flag is a bit of the attributes of a type. -/
def shown : List (Nat × String) := [(0, "required"), (1, "optional"), (2, "fixed"), (6, "fixedType"), (5, "nullable")]
/-- The words for the flags that are set. -/
def flagWords (bits : Nat) : List Bytes := (shown.filter fun p => bits.testBit p.1).map fun p => str p.2

/-- The flags that exclude one another, with the warning. -/
def exclusive : List ((Nat × Nat) × Warning) :=
  [((2, 1), .fixedOptional), ((0, 1), .requiredOptional), ((4, 3), .defaultSample), ((2, 6), .fixedFixedType)]
/-- The warnings for the flags that are set. -/
def clashing (bits : Nat) : List Warning := (exclusive.filter fun p => bits.testBit p.1.1 && bits.testBit p.1.2).map (·.2)
/-- The warnings about flags that exclude one another. -/
def AboutFlags (w : Warning) : Bool := exclusive.any fun p => p.2 == w

/-! ## Types -/


/-- The basic type that a type name stands for in the registry: that of a basic type is itself, that of a named type is the type of the
    element at the end of its chain of parents. -/
def StandsFor (r : Reg) (n : TypeName) (t : BaseName) : Prop :=
  n.base = some t ∨ (n.base = none ∧ n.literal ≠ [] ∧ ∃ p, RootOf r n.literal p ∧ Is t p)

/-- The type of a member: the one its type name stands for; failing that, a list if it has several values, an object if a type is named
    or it has a section of members, else the type of the items of the list it is in. -/
inductive MemberIs (r : Reg) (nested : BaseName) (m : Member) : BaseName → Prop
  | typed {t} : StandsFor r m.definition.type.spec.name t → MemberIs r nested m t
  | several : (∀ t, ¬ StandsFor r m.definition.type.spec.name t) → m.definition.values.length > 1 → MemberIs r nested m .array
  | structured : (∀ t, ¬ StandsFor r m.definition.type.spec.name t) → m.definition.values.length ≤ 1 →
      (m.definition.type.spec.name.literal ≠ [] ∨ ∃ s ∈ m.sections, s.klass = .members) → MemberIs r nested m .object
  | plain : (∀ t, ¬ StandsFor r m.definition.type.spec.name t) → m.definition.values.length ≤ 1 →
      m.definition.type.spec.name.literal = [] → (∀ s ∈ m.sections, s.klass ≠ .members) → MemberIs r nested m nested

/-- The type of a named type: the one its parent stands for, else an object. -/
def NamedIs (r : Reg) (ds : NamedType) (t : BaseName) : Prop :=
  StandsFor r ds.type.spec.name t ∨ ((∀ t, ¬ StandsFor r ds.type.spec.name t) ∧ t = .object)

/-- A named type of which nothing is written: no name, no type, no flags, no sections. -/
def Unwritten (ds : NamedType) : Prop :=
  ds.name.literal = [] ∧ ds.name.base = none ∧ ds.name.isVariable = false ∧ ds.type.attributes = 0 ∧ ds.type.spec.nested = [] ∧
    ds.type.spec.name.literal = [] ∧ ds.type.spec.name.base = none ∧ ds.type.spec.name.isVariable = false ∧ ds.sections = []

/-- The name of an element of a type: the name of its type if it has one that is not basic, else the word for its type. -/
def nameFor (t : BaseName) (ty : TypeDef) : Bytes := if ty.spec.name.literal = [] then word t else ty.spec.name.literal

/-! ## Texts -/

/-- What a text is read as by a type that holds a text, if it is one of that type. -/
inductive Reads : BaseName → Bytes → Option Data → Prop
  | string {s} : s ≠ [] → Reads .string s (some (.string s))
  | noString : Reads .string [] none
  | number {n w} : JsonNumber n → (∀ c ∈ w, IsSpace c) → Reads .number (n ++ w) (some (.number n))
  | noNumber {s} : (∀ n w, JsonNumber n → (∀ c ∈ w, IsSpace c) → s ≠ n ++ w) → Reads .number s none
  | yes : Reads .boolean (str "true") (some (.boolean true))
  | no : Reads .boolean (str "false") (some (.boolean false))
  | noBoolean {s} : s ≠ str "true" → s ≠ str "false" → Reads .boolean s none

/-- The element of a text: without content if the text is not one of the type. -/
inductive Entry (t : BaseName) (s : Bytes) : Elem → Prop
  | good {d} : Reads t s (some d) → Entry t s (.mk (word t) [] [] true d)
  | bad : Reads t s none → Entry t s (emptyOf t)

/-- What a text that is not one of the type is replaced with. -/
def fallback : BaseName → Data
  | .number => .number (str "0")
  | .boolean => .boolean false
  | _ => .string []

/-- The warning about a text that is not one of the type; there is none for texts. -/
def complaint : BaseName → List Warning
  | .number => [.numberFormat]
  | .boolean => [.booleanFormat]
  | _ => []

/-- The warnings about these texts. -/
inductive Complaints (t : BaseName) : List Bytes → List Warning → Prop
  | nil : Complaints t [] []
  | good {s d ss ws} : Reads t s (some d) → Complaints t ss ws → Complaints t (s :: ss) ws
  | bad {s ss ws} : Reads t s none → Complaints t ss ws → Complaints t (s :: ss) (complaint t ++ ws)

/-! ## What is written of a type -/

/-- What the values on the line of a member are used for. -/
inductive Use where
  | nothing | value | sample | default
deriving DecidableEq

/-- They are not used if the member is an object or there are none; they are the default or a sample if they are flagged so, also a
    sample if the first one is variable, except in lists and objects. -/
def useOf (t : BaseName) (v : ValueDef) : Use :=
  if v.values = [] ∨ v.type.base = .object ∨ v.type.base = .implicitObject then .nothing
  else if v.type.attributes.testBit 4 then .default
  else if v.type.attributes.testBit 3 ∨ (t ≠ .array ∧ t ≠ .object ∧ ∃ x, v.values.head? = some x ∧ x.isVariable = true) then .sample
  else .value

/-- A member whose own line is used: that of an object, which has its content in sections, is not. -/
def Lined (v : ValueDef) : Prop := v.type.base ≠ .object ∧ v.type.base ≠ .implicitObject
instance (v : ValueDef) : Decidable (Lined v) := inferInstanceAs (Decidable (_ ∧ _))

/-- The warnings about a flag without a value. -/
def missing (v : ValueDef) : List Warning :=
  if v.type.base ≠ .object ∧ v.type.base ≠ .implicitObject ∧ v.values = [] then
    (if v.type.attributes.testBit 4 then [.noDefault] else []) ++ (if v.type.attributes.testBit 3 then [.noSample] else [])
  else []

/-- The sections of a class that hold something. -/
def filled (k : Klass) (ss : List Section) : List Section :=
  ss.filter fun s => s.klass = k ∧ (s.value ≠ [] ∨ ¬ s.elements.isEmpty)

/-- The text on the line of a member, if it is used so. -/
def inlineText (t : BaseName) (v : ValueDef) (u : Use) : List Bytes :=
  if useOf t v = u then (v.values.map (·.literal)).take 1 else []

/-- All the texts of a member that are used as samples, or as the default. -/
def textsFor (t : BaseName) (m : Member) (u : Use) (k : Klass) : List Bytes :=
  inlineText t m.definition u ++ (filled k m.sections).map (·.value)

/-! ## Lists -/

/-- The type of the items of a list: the basic type that is named alone between its brackets if that holds a text, else text. -/
def itemType (nested : List TypeName) : BaseName :=
  if nested.map (·.base) = [some .boolean] then .boolean else if nested.map (·.base) = [some .number] then .number else .string

/-- The element of a value on the line of a list: a variable one has no content and is a sample of itself. -/
inductive Item (t : BaseName) (x : Value) : Elem → Prop
  | none : x.literal = [] → Item t x (emptyOf t)
  | value {e} : x.literal ≠ [] → x.isVariable = false → Entry t x.literal e → Item t x e
  | sample {d} : x.literal ≠ [] → x.isVariable = true → Reads t x.literal (some d) →
      Item t x ((emptyOf t).setAttributes [(str "samples", list [.mk (word t) [] [] true d])])
  | badSample : x.literal ≠ [] → x.isVariable = true → Reads t x.literal none →
      Item t x ((emptyOf t).setAttributes [(str "samples", emptyOf .array)])

/-- The elements of a type name between the brackets of a type. -/
inductive Hint (r : Reg) (n : TypeName) : List Elem → Prop
  | basic {t} : n.base = some t → n.literal = [] → Hint r n [emptyOf t]
  | nothing : n.base = none → n.literal = [] → Hint r n [emptyOf .object]
  | named {t} : n.base = none → n.literal ≠ [] → n.isVariable = false → StandsFor r n t → Hint r n [(emptyOf t).setName n.literal]
  | undefined : n.base = none → n.literal ≠ [] → n.isVariable = false → (∀ t, ¬ StandsFor r n t) → Hint r n []
  | sample {t d} : n.base = none → n.literal ≠ [] → n.isVariable = true → StandsFor r n t → Primitive t → Reads t n.literal (some d) →
      Hint r n [(emptyOf t).setAttributes [(str "samples", list [.mk (word t) [] [] true d])]]
  | badSample {t} : n.base = none → n.literal ≠ [] → n.isVariable = true → StandsFor r n t → Primitive t → Reads t n.literal none →
      Hint r n [(emptyOf t).setAttributes [(str "samples", emptyOf .array)]]
  | generic : n.base = none → n.literal ≠ [] → n.isVariable = true → (∀ t, StandsFor r n t → ¬ Primitive t) →
      Hint r n [.mk (str "generic") [] [] true (.string n.literal)]

/-- A type name as the parser makes them: a basic type has no literal. -/
def Parsed (n : TypeName) : Prop := n.base = none ∨ n.literal = []

/-- The elements between the brackets of a type. -/
def Hints (r : Reg) (ns : List TypeName) (l : List Elem) : Prop := ∃ ls, List.Forall₂ (Hint r) ns ls ∧ l = ls.flatten

/-- The type names between the brackets that are used as hints. -/
def hintNames (v : ValueDef) : List TypeName :=
  if v.type.base ≠ .object ∧ v.type.base ≠ .implicitObject ∧ (v.values = [] ∨ v.type.spec.nested.length > 1) then v.type.spec.nested else []

/-- A list, or an object, of elements; of the members of an object with the same name only the last one stays. -/
def fill (t : BaseName) (l : List Elem) : Elem := if t = .object then .mk (str "object") [] [] true (.object (lastOfEach l)) else list l

/-- The values on the line of a list, if they are used so. -/
def lineValues (t : BaseName) (v : ValueDef) (u : Use) : List Value := if useOf t v = u then v.values else []

/-- What the elements in a section become. -/
def Contents (r : Reg) (nested : BaseName) (s : Section) (l : List Elem) : Prop := (convertElements r nested s.elements).result = .ok l

/-- The sections of members. -/
def memberSections (ss : List Section) : List Section := ss.filter fun s => s.klass = .members

/-- The content of a list or an object: what is between the brackets of its type, on its line, and in its sections of members. -/
structure Content (r : Reg) (nested : List TypeName) (hints : List TypeName) (line : List Value) (ss : List Section) (l : List Elem) : Prop where
  parts : ∃ hs ls ms, Hints r hints hs ∧ List.Forall₂ (Item (itemType nested)) line ls ∧
    List.Forall₂ (Contents r (itemType nested)) (memberSections ss) ms ∧ l = hs ++ ls ++ ms.flatten

/-- The lists that are samples, or defaults: that on the line, if it is used so, then those of the sections. -/
structure Lists (r : Reg) (nested : List TypeName) (t : BaseName) (v : ValueDef) (u : Use) (ss : List Section) (ls : List (List Elem)) : Prop where
  parts : ∃ line ms, List.Forall₂ (Item (itemType nested)) v.values line ∧ List.Forall₂ (Contents r (itemType nested)) ss ms ∧
    ls = (if useOf t v = u then [line] else []) ++ ms

/-! ## Enumerations -/

/-- Equal attributes: both missing, or equal except for the names of the elements (operator== does not compare them). -/
def Same (a b : Option Elem) : Prop := a.map anonymous = b.map anonymous

/-- The parts of two entries of an enumeration that are compared before their values. -/
structure AlikeOutside (a b : Elem) : Prop where
  has : a.has = b.has
  name : a.name = b.name
  metas : ∀ k, k ≠ str "description" → Same (Infos.find a.metas k) (Infos.find b.metas k)
  attributes : ∀ k, k ≠ str "sourceMap" → Same (Infos.find a.attributes k) (Infos.find b.attributes k)

/-- Two entries of an enumeration are the same one: whatever their descriptions and their places in the document are. -/
def Alike (a b : Elem) : Prop := AlikeOutside a b ∧ (a.has = true → anonymousD a.data = anonymousD b.data)

/-- The flags of an element. -/
def flagsOf (e : Elem) : List Elem :=
  match attr e "typeAttributes" with
  | some (.mk _ _ _ _ (.array es)) => es
  | _ => []
/-- One of the flags is `fixed`. -/
def HasFixed (e : Elem) : Prop := ∃ x ∈ flagsOf e, x.has = true ∧ x.data = .string (str "fixed")
/-- A value that is given literally: a text with content, or anything but null that is fixed. -/
def Literal (e : Elem) : Prop := (HasFixed e ∧ e.data ≠ .null) ∨ (e.has = true ∧ ∃ t, Primitive t ∧ Is t e)

/-- An entry of an enumeration gets the flag `fixed` if it is given literally and has no such flag. -/
inductive Flagged (e : Elem) : Elem → Prop
  | asIs : ¬ Literal e ∨ HasFixed e → Flagged e e
  | flagged : Literal e → ¬ HasFixed e → Flagged e (setAttr (str "typeAttributes") (list (flagsOf e ++ [text (str "fixed")])) e)

/-- The gathering of entries: what is written (with whether it is warned about if it is there already), what is there already, what is
    there in the end, and the number of warnings. -/
inductive Gathered : List (Elem × Bool) → List Elem → List Elem → Nat → Prop
  | done {there} : Gathered [] there there 0
  | new {x b rest there result n} : (∀ y ∈ there, ¬ Alike x y) → Gathered rest (there ++ [x]) result n → Gathered ((x, b) :: rest) there result n
  | again {x b rest there result n} : (∃ y ∈ there, Alike x y) → Gathered rest there result n →
      Gathered ((x, b) :: rest) there result ((if b then 1 else 0) + n)

/-- The element of a value on the line of an enumeration. -/
inductive Choice (t : BaseName) (x : Value) : Elem → Prop
  | none {e} : x.literal = [] → Flagged (emptyOf t) e → Choice t x e
  | value {e e'} : x.literal ≠ [] → Entry t x.literal e → Flagged e e' → Choice t x e'

/-- What the elements in a section of an enumeration become. -/
def Entries (r : Reg) (nested : BaseName) (s : Section) (l : List Elem) : Prop := ∃ c, Contents r nested s c ∧ List.Forall₂ Flagged c l

/-- What is written of an enumeration: each part is a list of lists, of which the one on the line is the first. -/
structure Choices where
  line : List (List Elem)
  values : List (List Elem)
  samples : List (List Elem)
  defaults : List (List Elem)
  hints : List Elem

/-- The values on the line of a member as such a part, if they are used so. -/
def lineLists (t : BaseName) (v : ValueDef) (u : Use) : List (List Value) := if useOf t v = u then [v.values] else []

/-- What is written of an enumeration with this line and these sections. -/
structure Chosen (r : Reg) (nested hints : List TypeName) (on : Use → List (List Value)) (ss : List Section) (c : Choices) : Prop where
  line : List.Forall₂ (List.Forall₂ (Choice (itemType nested))) (on .value) c.line
  values : List.Forall₂ (Entries r (itemType nested)) (memberSections ss) c.values
  samples : ∃ a b, List.Forall₂ (List.Forall₂ (Choice (itemType nested))) (on .sample) a ∧
    List.Forall₂ (Entries r (itemType nested)) (filled .sample ss) b ∧ c.samples = a ++ b
  defaults : ∃ a b, List.Forall₂ (List.Forall₂ (Choice (itemType nested))) (on .default) a ∧
    List.Forall₂ (Entries r (itemType nested)) (filled .default ss) b ∧ c.defaults = a ++ b
  brackets : Hints r hints c.hints

/-- A list without the elements that do not satisfy a condition. -/
inductive Filtered (P : Elem → Prop) : List Elem → List Elem → Prop
  | nil : Filtered P [] []
  | keep {x l l'} : P x → Filtered P l l' → Filtered P (x :: l) (x :: l')
  | drop {x l l'} : ¬ P x → Filtered P l l' → Filtered P (x :: l) l'

/-- All the entries that are written, in the order in which they are gathered, with whether a repetition is warned about: values on the
    line that are not repeated in the sections, those in the sections, the samples, the defaults, and what is between the brackets. -/
def toGather (line : List Elem) (c : Choices) : List (Elem × Bool) :=
  line.map (·, true) ++ (c.values.flatten.map (·, true) ++ (c.samples.flatten.map (·, false) ++ (c.defaults.flatten.map (·, false) ++ c.hints.map (·, true))))

/-- The enumerations of an element, and the number of warnings about repetitions. -/
def Enumerates (c : Choices) (enums : List Elem) (n : Nat) : Prop :=
  ∃ line kept, Filtered (fun x => ∀ y ∈ c.values.flatten, ¬ Alike x y) c.line.flatten line ∧ Gathered (toGather line c) [] kept n ∧
    List.Forall₂ Flagged kept enums

/-- The only element of the first list, if it has content. -/
def only : List (List Elem) → Option Elem
  | [e] :: _ => if e.has then some e else none
  | _ => none

/-- The value that is chosen: the only one on the line, else the only one in the first section of members. -/
def chosen (c : Choices) : Option Elem := (only c.line).or (only c.values)

/-- An element as the value of an enumeration. -/
def wrapped (e : Elem) : Elem := .mk (str "enum") [] [] true (.enum (some e))

/-- More than one default is written. -/
def severalDefaults (c : Choices) : Bool := c.defaults.length > 1 || (c.defaults.head?.getD []).length > 1

/-- The element that is made of an enumeration, and the warnings about it. -/
structure Enumeration (c : Choices) (v : Elem) (ws : List Warning) : Prop where
  /-- The entries are those that are written, each once. -/
  enumerations : ∃ enums n, Enumerates c enums n ∧ attr v "enumerations" = listed enums ∧
    ws = List.replicate n .duplicate ++ if severalDefaults c then [.multipleDefaults] else []
  /-- It has the value that is chosen. -/
  content : ∀ x, chosen c = some x → v.has = true ∧ v.data = .enum (some x)
  noContent : chosen c = none → v.has = false
  /-- Each sample is a value of the enumeration. -/
  samples : attr v "samples" = listed (c.samples.flatten.map wrapped)
  /-- The default is the last one. -/
  default : ∀ x, c.defaults.flatten.getLast? = some x → attr v "default" = some (wrapped x)
  noDefault : c.defaults = [] → attr v "default" = none
  emptyDefault : c.defaults ≠ [] → c.defaults.flatten = [] → attr v "default" = some (emptyOf .enum)

/-! ## Descriptions -/

/-- The blocks of description of a list of sections. -/
def blocks (ss : List Section) : List (Bytes × SourceMap) :=
  (ss.filter fun s => s.klass = .description).map fun s => (s.description, s.descriptionMap)

/-- Texts one below the other, without the empty ones. -/
def paragraphs (l : List Bytes) : Bytes := List.intercalate (str "\n") (l.filter (· ≠ []))

/-- The description of an element. -/
def descriptionOf (e : Elem) : Option Bytes :=
  match Infos.find e.metas (str "description") with
  | some (.mk _ _ _ true (.string s)) => some s
  | _ => none

/-- A text that is left out if it is empty. -/
def unlessEmpty (s : Bytes) : Option Bytes := if s = [] then none else some s

/-! ## Properties -/

/-- The variable of a property is given. -/
def HasVariable (n : PropertyName) : Prop :=
  n.isVariable.values ≠ [] ∨ n.isVariable.type.attributes ≠ 0 ∨ n.isVariable.type.spec.nested ≠ [] ∨
    n.isVariable.type.spec.name.base ≠ none ∨ n.isVariable.type.spec.name.literal ≠ [] ∨ n.isVariable.type.spec.name.isVariable = true

/-- The text of a key: the name, else the first value of the variable. -/
def textOfKey (n : PropertyName) : Option Bytes :=
  if n.literal ≠ [] then some n.literal else (n.isVariable.values.head?).map (·.literal)

/-- The name of the element of a key: the type of the variable, if it is named. -/
def keyType (n : PropertyName) : Bytes := if n.isVariable.type.spec.name.literal ≠ [] then n.isVariable.type.spec.name.literal else str "string"

/-- The element of a key: a text, or nothing if it has none. -/
structure Key (n : PropertyName) (k : Elem) : Prop where
  name : k.name = keyType n
  text : ∀ s, textOfKey n = some s → k.has = true ∧ k.data = .string s
  noText : textOfKey n = none → k.has = false ∧ k.data = .string []

/-- A property without a key that could be shown. -/
def Nameless (n : PropertyName) : Prop := reserved (keyType n) ∧ (textOfKey n = none ∨ textOfKey n = some [])

/-- The element of a property. -/
structure Property (n : PropertyName) (k v e : Elem) : Prop where
  key : Key n k
  data : e.has = true ∧ e.data = .member (some k) (some v)
  name : e.name = str "member"
  isVariable : HasVariable n → attr e "variable" = some (.mk (str "boolean") [] [] true (.boolean true))
  notVariable : ¬ HasVariable n → attr e "variable" = none

/-- The text of the name of a type. -/
def symbol (n : TypeName) : Bytes :=
  match n.base with
  | some t => if n.literal = [] ∧ n.isVariable = false then word t else n.literal
  | none => n.literal

/-- The element of an inclusion of a type. -/
def inclusion (n : TypeName) : Elem := .mk (str "ref") [] [(str "path", text (str "content"))] true (.ref (symbol n))
/-- The element of one choice. -/
def oneChoice (l : List Elem) : Elem := .mk (str "option") [] [] true (.option l)
/-- The element of alternatives, which is empty if there are none. -/
def alternatives (l : List Elem) : Elem := .mk (str "select") [] [] (l ≠ []) (.select l)

end Verif.Spec.DataStructure
