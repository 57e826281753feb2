import Verif.Spec.Same
/-!
# JSON Schema, draft 7 (specification)

The part of JSON Schema that the keywords of generated schemas need: `Valid re schema instance` says that the instance is valid
against the schema, where `re pattern key` is the matching of regular expressions.  A keyword not listed here is ignored.  Numbers
are compared by their text.
-/
namespace Verif.Spec
open Verif Verif.So

/-- The instance is of the JSON type with this name. -/
def HasType (t : Bytes) : Value → Prop
  | .null => t = str "null"
  | .tru => t = str "boolean"
  | .fls => t = str "boolean"
  | .str _ => t = str "string"
  | .num _ => t = str "number"
  | .obj _ => t = str "object"
  | .arr _ => t = str "array"

/-- `x` is the non-negative integer `n`. -/
def IsCount (x : Value) (n : Nat) : Prop := x = .num (str (toString n))

/-- `k` is a member of the keyword `w` (`properties` or `patternProperties`) of a schema. -/
def Declared (all : List (Bytes × Value)) (w : Bytes) (k : Bytes) : Prop :=
  ∃ ps, (w, Value.obj ps) ∈ all ∧ k ∈ ps.map (·.1)

variable (re : Bytes → Bytes → Prop)

mutual
/-- Is the instance valid against the schema? -/
def Valid : Value → Value → Prop
  | .tru, _ => True
  | .obj ms, v => ValidKeywords ms ms v
  | _, _ => False
termination_by structural s => s
/-- All the keywords of a schema; `all` are all the keywords of the schema they are part of. -/
def ValidKeywords (all : List (Bytes × Value)) : List (Bytes × Value) → Value → Prop
  | [], _ => True
  | p :: r, v => ValidKeyword all p v ∧ ValidKeywords all r v
termination_by structural s => s
/-- One keyword. -/
def ValidKeyword (all : List (Bytes × Value)) : Bytes × Value → Value → Prop
  | (k, x), v =>
    (k = str "type" → ∃ t, x = .str t ∧ HasType t v) ∧
    (k = str "const" → Same x v) ∧
    (k = str "enum" → ∃ es, x = .arr es ∧ ∃ e ∈ es, Same e v) ∧
    (k = str "properties" → ValidProperties x v) ∧
    (k = str "patternProperties" → ValidPatterns x v) ∧
    (k = str "additionalProperties" → ∀ ms, v = .obj ms → ∀ m ∈ ms, ¬ Declared all (str "properties") m.1 →
      (¬ ∃ p, Declared all (str "patternProperties") p ∧ re p m.1) → Valid x m.2) ∧
    (k = str "required" → ∃ rs, x = .arr rs ∧ ∀ ms, v = .obj ms → ∀ r ∈ rs, ∃ n ∈ ms.map (·.1), r = .str n) ∧
    (k = str "items" → ValidItems x v) ∧
    (k = str "additionalItems" → ∀ es ss, v = .arr es → (str "items", .arr ss) ∈ all → ∀ e ∈ es.drop ss.length, Valid x e) ∧
    (k = str "minItems" → ∃ n, IsCount x n ∧ ∀ es, v = .arr es → n ≤ es.length) ∧
    (k = str "maxItems" → ∃ n, IsCount x n ∧ ∀ es, v = .arr es → es.length ≤ n) ∧
    (k = str "anyOf" → ValidAny x v) ∧
    (k = str "allOf" → ValidAll x v) ∧
    (k = str "oneOf" → ValidOne x v)
termination_by structural s => s
/-- `properties`: the members of the instance with these names are valid. -/
def ValidProperties : Value → Value → Prop
  | .obj ps, v => ValidPropertiesM ps v
  | _, _ => False
termination_by structural s => s
def ValidPropertiesM : List (Bytes × Value) → Value → Prop
  | [], _ => True
  | p :: r, v => ValidProperty p v ∧ ValidPropertiesM r v
termination_by structural s => s
def ValidProperty : Bytes × Value → Value → Prop
  | (k, s), v => ∀ ms, v = .obj ms → ∀ m ∈ ms, m.1 = k → Valid s m.2
termination_by structural s => s
/-- `patternProperties`: the members of the instance whose names match are valid. -/
def ValidPatterns : Value → Value → Prop
  | .obj ps, v => ValidPatternsM ps v
  | _, _ => False
termination_by structural s => s
def ValidPatternsM : List (Bytes × Value) → Value → Prop
  | [], _ => True
  | p :: r, v => ValidPattern p v ∧ ValidPatternsM r v
termination_by structural s => s
def ValidPattern : Bytes × Value → Value → Prop
  | (p, s), v => ∀ ms, v = .obj ms → ∀ m ∈ ms, re p m.1 → Valid s m.2
termination_by structural s => s
/-- `items`: one schema for all items, or one for each position. -/
def ValidItems : Value → Value → Prop
  | .tru, _ => True
  | .fls, v => v = .arr [] ∨ ∀ es, v ≠ .arr es
  | .obj s, v => ∀ es, v = .arr es → ∀ e ∈ es, ValidKeywords s s e
  | .arr ss, v => ∀ es, v = .arr es → ValidTuple ss es
  | _, _ => False
termination_by structural s => s
def ValidTuple : List Value → List Value → Prop
  | [], _ => True
  | _ :: _, [] => True
  | s :: ss, e :: es => Valid s e ∧ ValidTuple ss es
termination_by structural s => s
/-- `anyOf` -/
def ValidAny : Value → Value → Prop
  | .arr ss, v => SomeValid ss v
  | _, _ => False
termination_by structural s => s
def SomeValid : List Value → Value → Prop
  | [], _ => False
  | s :: r, v => Valid s v ∨ SomeValid r v
termination_by structural s => s
/-- `allOf` -/
def ValidAll : Value → Value → Prop
  | .arr ss, v => EachValid ss v
  | _, _ => False
termination_by structural s => s
def EachValid : List Value → Value → Prop
  | [], _ => True
  | s :: r, v => Valid s v ∧ EachValid r v
termination_by structural s => s
/-- `oneOf` -/
def ValidOne : Value → Value → Prop
  | .arr ss, v => OneValid ss v
  | _, _ => False
termination_by structural s => s
def OneValid : List Value → Value → Prop
  | [], _ => False
  | s :: r, v => (Valid s v ∧ ¬ SomeValid r v) ∨ (¬ Valid s v ∧ OneValid r v)
termination_by structural s => s
end

/-! ## Schemas that follow the rules of JSON Schema -/

mutual
/-- The value is a schema, and `P` holds for the keywords of this schema and of all the schemas in it. -/
def Every (P : List (Bytes × Value) → Prop) : Value → Prop
  | .tru => True
  | .fls => True
  | .obj ms => P ms ∧ EveryKeywords P ms
  | _ => False
termination_by structural s => s
def EveryKeywords (P : List (Bytes × Value) → Prop) : List (Bytes × Value) → Prop
  | [] => True
  | p :: r => EveryKeyword P p ∧ EveryKeywords P r
termination_by structural s => s
def EveryKeyword (P : List (Bytes × Value) → Prop) : Bytes × Value → Prop
  | (k, x) =>
    (k = str "properties" ∨ k = str "patternProperties" → EveryMember P x) ∧
    (k = str "additionalProperties" ∨ k = str "additionalItems" → Every P x) ∧
    (k = str "items" → EveryItem P x) ∧
    (k = str "anyOf" ∨ k = str "allOf" ∨ k = str "oneOf" → EveryElement P x)
termination_by structural s => s
def EveryMember (P : List (Bytes × Value) → Prop) : Value → Prop
  | .obj ms => EveryMembers P ms
  | _ => False
termination_by structural s => s
def EveryMembers (P : List (Bytes × Value) → Prop) : List (Bytes × Value) → Prop
  | [] => True
  | p :: r => EveryMemberValue P p ∧ EveryMembers P r
termination_by structural s => s
def EveryMemberValue (P : List (Bytes × Value) → Prop) : Bytes × Value → Prop
  | (_, v) => Every P v
termination_by structural s => s
/-- `items` is a schema or an array of schemas. -/
def EveryItem (P : List (Bytes × Value) → Prop) : Value → Prop
  | .tru => True
  | .fls => True
  | .obj ms => P ms ∧ EveryKeywords P ms
  | .arr es => EveryElements P es
  | _ => False
termination_by structural s => s
def EveryElement (P : List (Bytes × Value) → Prop) : Value → Prop
  | .arr es => EveryElements P es
  | _ => False
termination_by structural s => s
def EveryElements (P : List (Bytes × Value) → Prop) : List Value → Prop
  | [] => True
  | v :: r => Every P v ∧ EveryElements P r
termination_by structural s => s
end

/-- The values of the keywords have the form that JSON Schema demands: each keyword occurs once; `type` is the name of a type;
    counts are non-negative integers; `required` is a list of strings, each the name of a declared property. -/
structure Formed (ms : List (Bytes × Value)) : Prop where
  keywords : (ms.map (·.1)).Nodup
  type : ∀ x, (str "type", x) ∈ ms → ∃ t, x = .str t ∧ ∃ v, HasType t v
  counts : ∀ x, (str "minItems", x) ∈ ms ∨ (str "maxItems", x) ∈ ms → ∃ n, IsCount x n
  required : ∀ x, (str "required", x) ∈ ms → ∃ rs, x = .arr rs ∧ ∀ r ∈ rs, ∃ k, r = .str k ∧ Declared ms (str "properties") k
  /-- the patterns of properties are different -/
  patterns : ∀ ps, (str "patternProperties", Value.obj ps) ∈ ms → (ps.map (·.1)).Nodup

/-- In addition, the names of properties are different, so are the required ones, and enumerations and lists of alternatives are
    not empty. -/
structure Proper (ms : List (Bytes × Value)) : Prop where
  names : ∀ ps, (str "properties", Value.obj ps) ∈ ms → (ps.map (·.1)).Nodup
  required : ∀ rs, (str "required", Value.arr rs) ∈ ms → rs.Nodup
  enum : (str "enum", Value.arr []) ∉ ms
  alternatives : ∀ k es, (k, Value.arr es) ∈ ms → (k = str "anyOf" ∨ k = str "allOf" ∨ k = str "oneOf") → es ≠ []

end Verif.Spec
