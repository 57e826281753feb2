import Verif.Spec.Text
import Verif.Model.Mson
/-!
# Types and values in MSON (specification)

The types of the results (`Value`, `TypeName`, `TypeSpec`, ...) are those of the model, they only hold data.
-/
namespace Verif.Spec.Mson
open Verif Verif.Spec
open Verif.NamedTypes (BaseName TypeName)
open Verif.Mson (Value Base TypeSpec)

/-! ## Values -/

/-- `s` is `t` between two runs of `k` characters `c`, and perhaps something after them: `k` is the number of such characters at the
beginning, and the second run is the first one after the beginning. -/
def Enclosed (c : UInt8) (s t : Bytes) : Prop :=
  ∃ k rest, 0 < k ∧ s = List.replicate k c ++ t ++ List.replicate k c ++ rest ∧ t.head? ≠ some c ∧ t ≠ [] ∧
    ∀ a b, t ++ List.replicate k c ++ rest = a ++ List.replicate k c ++ b → t.length ≤ a.length

/-- `s` begins and ends with the character `c`. -/
def Between (c : UInt8) (s : Bytes) : Prop := s.head? = some c ∧ s.getLast? = some c

/-- The text that `s` stands for, and whether it is marked as a variable: by emphasis, which is removed; backticks are removed from
what is not. -/
inductive Raw : Bytes → Bytes → Bool → Prop
  | emphasis (c : UInt8) (s t : Bytes) (hc : c = asc '*' ∨ c = asc '_') (h : Between c s) (he : Enclosed c s t) : Raw s t true
  | unclosed (c : UInt8) (s : Bytes) (hc : c = asc '*' ∨ c = asc '_') (h : Between c s) (he : ∀ t, ¬ Enclosed c s t) : Raw s s true
  | quoted (s t v : Bytes) (h : Between (asc '`') s) (he : Enclosed (asc '`') s t) (hv : Trimmed t v) : Raw s v false
  | unquoted (s : Bytes) (h : Between (asc '`') s) (he : ∀ t, ¬ Enclosed (asc '`') s t) : Raw s s false
  | plain (s : Bytes) (h : ¬ Between (asc '*') s) (h' : ¬ Between (asc '_') s) (h'' : ¬ Between (asc '`') s) : Raw s s false

/-- The value that `s` stands for: a single `*` is a variable without a name. -/
def Stands (s : Bytes) (v : Value) : Prop :=
  ∃ t b, Raw s t b ∧ (t = str "*" ∧ v = ⟨[], true⟩ ∨ t ≠ str "*" ∧ v = ⟨t, b⟩)

/-! ## Names of types -/

/-- The words for the base types. -/
def baseWord : BaseName → Bytes
  | .boolean => str "boolean" | .string => str "string" | .number => str "number"
  | .array => str "array" | .enum => str "enum" | .object => str "object"

/-- The type that `s` names: a base type, or a named one. -/
def Names (s : Bytes) (ty : TypeName) : Prop :=
  (∃ b, s = baseWord b ∧ ty = ⟨some b, [], false⟩) ∨
  ((∀ b, s ≠ baseWord b) ∧ ty.base = none ∧ Stands s ⟨ty.literal, ty.isVariable⟩)

/-! ## Type specifications -/

/-- The name in a part of a list of types: none if it is blank. -/
inductive Part : Bytes → List TypeName → Prop
  | blank (s : Bytes) (h : Blank s) : Part s []
  | name (s t : Bytes) (ty : TypeName) (h : Trimmed s t) (h0 : t ≠ []) (hty : Names t ty) : Part s [ty]

/-- `s` opens a link in a list of types; the text of the link follows. -/
def Opens (s : Bytes) : Prop :=
  ∃ pre mid, s = pre ++ asc '[' :: mid ∧ asc '[' ∉ pre ∧ asc ',' ∉ pre ∧ asc ']' ∉ mid ∧ (mid = [] ∨ mid.getLast? = some (asc '['))

/-- The last part of a list of types: a name, or a link.  Of a name the closing bracket is removed. -/
inductive Last : Bytes → List TypeName → Prop
  | blank (s : Bytes) (h : Blank s) : Last s []
  | closed (s t u : Bytes) (ty : TypeName) (hs : asc '[' ∉ s) (hs' : asc ',' ∉ s) (h : Trimmed s (t ++ [asc ']'])) (hu : Trimmed t u)
      (hty : Names u ty) : Last s [ty]
  | unclosed (s t : Bytes) (ty : TypeName) (hs : asc '[' ∉ s) (hs' : asc ',' ∉ s) (h : Trimmed s t) (h0 : t ≠ [])
      (hl : t.getLast? ≠ some (asc ']')) (hty : Names t ty) : Last s [ty]
  | link (open' text after : Bytes) (tys : List TypeName) (ho : Opens open') (h : asc '[' ∉ text) (h' : asc ']' ∉ text)
      (ha : asc ',' ∉ after) (hp : Part text tys) : Last (open' ++ text ++ asc ']' :: after) tys
  | unclosedLink (open' text : Bytes) (tys : List TypeName) (ho : Opens open') (h : asc '[' ∉ text) (h' : asc ']' ∉ text)
      (hp : Part text tys) : Last (open' ++ text) tys

/-- A list of types, from after its opening bracket: parts separated by commas.  A part is a name or a link; what is before a link and
between a link and the next comma does not count, and a comma in the text of a link does not separate. -/
inductive Nested : Bytes → List TypeName → Prop
  | last (s : Bytes) (tys : List TypeName) (h : Last s tys) : Nested s tys
  | name (s rest : Bytes) (tys tys' : List TypeName) (hs : asc '[' ∉ s) (hs' : asc ',' ∉ s) (hp : Part s tys) (hr : Nested rest tys') :
      Nested (s ++ asc ',' :: rest) (tys ++ tys')
  | link (open' text after rest : Bytes) (tys tys' : List TypeName) (ho : Opens open') (h : asc '[' ∉ text) (h' : asc ']' ∉ text)
      (ha : asc ',' ∉ after) (hp : Part text tys) (hr : Nested rest tys') :
      Nested (open' ++ text ++ asc ']' :: after ++ asc ',' :: rest) (tys ++ tys')

/-- No type. -/
def noType : TypeName := ⟨none, [], false⟩

/-- The type and nested types that a text specifies: `name` or `name[list]`. -/
inductive Specifies : Bytes → TypeSpec → Prop
  | name (s : Bytes) (tys : List TypeName) (h : asc '[' ∉ s) (hp : Part s tys) : Specifies s ⟨tys.headD noType, []⟩
  | nested (s rest : Bytes) (tys tys' : List TypeName) (h : asc '[' ∉ s) (hp : Part s tys) (hr : Nested rest tys') :
      Specifies (s ++ asc '[' :: rest) ⟨tys.headD noType, tys'⟩

/-- Blanks and tabs. -/
def Spaces (s : Bytes) : Prop := ∀ c ∈ s, c = asc ' ' ∨ c = asc '\t'

/-- No brackets. -/
def Inner (s : Bytes) : Prop := ∀ c ∈ s, c ∉ str "[]()"

/-- `s` is a Markdown link with the text `t`: `[t](destination)` or `[t][label]`. -/
def IsLink (s t : Bytes) : Prop :=
  ∃ b u b', Spaces b ∧ Spaces b' ∧ Inner u ∧
    (s = asc '[' :: t ++ asc ']' :: b ++ asc '[' :: u ++ asc ']' :: b' ∨
      u ≠ [] ∧ s = asc '[' :: t ++ asc ']' :: b ++ asc '(' :: u ++ asc ')' :: b')

/-- The type and nested types that an attribute of a signature specifies: of a link, its text. -/
inductive Denotes : Bytes → TypeSpec → Prop
  | text (s : Bytes) (sp : TypeSpec) (h : s.head? ≠ some (asc '[')) (hs : Specifies s sp) : Denotes s sp
  | link (s t : Bytes) (sp : TypeSpec) (h : IsLink s t) (hs : Specifies t sp) : Denotes s sp
  | broken (s : Bytes) (h : s.head? = some (asc '[')) (h' : ∀ t, ¬ IsLink s t) : Denotes s {}

/-! ## Attributes -/

/-- The words for the attributes of a type, in the order of their bits. -/
def words : List Bytes :=
  [str "required", str "optional", str "fixed", str "sample", str "default", str "nullable", str "fixed-type"]

/-- What is not such a word. -/
def others (attributes : List Bytes) : List Bytes := attributes.filter fun a => a ∉ words

/-- The kind of a base type. -/
def kindOf : BaseName → Base
  | .boolean => .primitive | .string => .primitive | .number => .primitive
  | .object => .object
  | .array => .value | .enum => .value

/-- The kind of a type: that of the base type, or the one which the table has for a named type. -/
def kindIn (table : Bytes → Option NamedTypes.BaseType) (ty : TypeName) : Base :=
  match ty.base with
  | some b => kindOf b
  | none => match table ty.literal with
    | some .primitive => .primitive
    | some .object => .object
    | some .implicitObject => .implicitObject
    | some .value => .value
    | none => .undefined

/-- The type is a named one, and not a variable. -/
def Refers (ty : TypeName) : Prop := ty.literal ≠ [] ∧ ty.isVariable = false

/-- The named types that a member refers to: its type, or the nested types of an array or enumeration. -/
def References (sp : TypeSpec) (name : Bytes) : Prop :=
  (sp.name.base = none ∧ Refers sp.name ∧ name = sp.name.literal) ∨
  ((sp.name.base = some .array ∨ sp.name.base = some .enum) ∧ ∃ n ∈ sp.nested, Refers n ∧ name = n.literal)

end Verif.Spec.Mson
