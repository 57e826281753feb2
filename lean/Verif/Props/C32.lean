import Verif.Proof.SchemaValid
import Verif.Props.C33
/-!
# C32: generated bodies are valid against generated schemas

The full property is: for all elements for which both are generated, `Valid re schema body` (Spec/Schema.lean), where `re` is the
matching of regular expressions.  It is false: for an object with a variable property, whose pattern matches the names of all
the other properties (`C32_variable_refuted`), for an object with alternatives, which are all matched by an object without any of their
properties (`C32_alternatives_refuted`), for a fixed array with a type (`C32_fixed_array_refuted`), and for a fixed object with
alternatives (`C32_fixed_alternatives_refuted`).  It holds for the structures that are `Regular` (Spec/Regular.lean):
`C32_valid_partial`.
-/
namespace Verif.Props
open Verif Verif.Refract Verif.Spec Verif.JsonSchema Verif.JsonValue

/-- The body generated for a regular structure is valid against the schema generated for it. -/
theorem C32_valid_partial (e : Elem) (hr : Regular (.value false false false) e) (v s : So.Value) (hv : generateJsonValue e = .ok v)
    (hs : generateJsonSchema e = .ok s) (re : Bytes → Bytes → Prop) : Valid re s v :=
  generate_valid hr hv hs

/-- A required property. -/
def theName : Elem := (prop (str "name") (makeElement (.string (str "x")))).setAttributes (typeAttrs ["required"])

theorem regular_named : Regular (.content true [str "name"]) (makeElement (.object [theName])) := by
  refine Regular.mixin (es := [theName]) (fun _ => [str "name"]) rfl rfl (fun _ x hx => ?_) ?_
  · simp only [List.mem_cons, List.not_mem_nil, or_false] at hx
    subst hx; rfl
  · intro x hx
    simp only [List.mem_cons, List.not_mem_nil, or_false] at hx
    subst hx
    exact .property ⟨_, rfl, rfl, rfl, by decide +kernel⟩ rfl (.primitive (.string _) (by intro h; cases h))

/-- A fixed object with properties of all types, a mixin, an optional property without a value, an enumeration, a tuple and an array
    of a fixed type. -/
def order : Elem := (makeElement (.object
  [ prop (str "id") (makeElement (.number (str "1"))),
    (makeElement (.ref (str "Named"))).setAttributes
        [(str "resolved", makeElement (.object [theName]))],
    (prop (str "note") (makeEmpty .string)).setAttributes (typeAttrs ["optional"]),
    (prop (str "state") ((makeEmpty .enum).setAttributes
      [(str "enumerations", makeElement (.array [makeElement (.string (str "open")), makeElement (.string (str "closed"))]))])),
    prop (str "pair") (makeElement (.array [makeElement (.string (str "a")), makeElement (.boolean true)])),
    (prop (str "tags") ((makeElement (.array [makeElement (.string (str "t")), makeEmpty .number])).setAttributes (typeAttrs ["fixedType", "nullable"]))) ])).setAttributes
    (typeAttrs ["fixed"])

def orderNames (m : Elem) : List Bytes :=
  match m.data with
  | .member (some k) _ => (match k.data with | .string s => [s] | _ => [])
  | _ => [str "name"]

theorem regular_order : Regular (.value false false false) order := by
  refine .object orderNames (fun x => match inheritsFixed x with | .ok b => b | _ => false) rfl rfl ?_ ?_ (by decide +kernel)
  · intro x hx
    simp only [List.mem_cons, List.not_mem_nil, or_false] at hx
    rcases hx with rfl | rfl | rfl | rfl | rfl | rfl <;> rfl
  · intro x hx
    simp only [List.mem_cons, List.not_mem_nil, or_false] at hx
    rcases hx with rfl | rfl | rfl | rfl | rfl | rfl
    · exact .property ⟨_, rfl, rfl, rfl, by decide +kernel⟩ rfl (.primitive (.number _) (by intro h; cases h))
    · exact .ref (k := str "Named") rfl rfl regular_named
    · exact .property ⟨_, rfl, rfl, rfl, by decide +kernel⟩ rfl (.primitive (.string _) (by rintro _ s (h | h) <;> cases h))
    · refine .property ⟨_, rfl, rfl, rfl, by decide +kernel⟩ rfl (.enumFirst (v := none) rfl ⟨rfl, rfl, rfl⟩ rfl rfl rfl rfl (.string _) ?_)
      exact .primitive (.string _) (by intro h; cases h)
    · refine .property ⟨_, rfl, rfl, rfl, by decide +kernel⟩ rfl (.tuple (fun _ => true) rfl rfl rfl ?_ ?_)
      · intro x hx
        simp only [List.mem_cons, List.not_mem_nil, or_false] at hx
        rcases hx with rfl | rfl <;> exact ⟨rfl, rfl⟩
      · intro x hx
        simp only [List.mem_cons, List.not_mem_nil, or_false] at hx
        rcases hx with rfl | rfl
        · exact .primitive (.string _) (by intro h; cases h)
        · exact .primitive .true (by intro h; cases h)
    · refine .property ⟨_, rfl, rfl, rfl, by decide +kernel⟩ rfl (.typedArray (fun x => definesValue x) rfl rfl rfl (.inr ?_) ?_ ?_)
      all_goals
        intro x hx
        simp only [List.mem_cons, List.not_mem_nil, or_false] at hx
      · rcases hx with rfl | rfl
        · exact ⟨_, _, .string _⟩
        · exact ⟨_, _, .number _⟩
      · rcases hx with rfl | rfl
        · exact ⟨(by intro k h; cases h), rfl⟩
        · exact ⟨(by intro k h; cases h), rfl⟩
      · rcases hx with rfl | rfl
        · exact .primitive (.string _) (by intro h; cases h)
        · exact .primitive (.number _) (by rintro _ s (h | h) <;> cases h)

example : ∃ v s, generateJsonValue order = .ok v ∧ generateJsonSchema order = .ok s ∧ ∀ re, Valid re s v :=
  ⟨_, _, rfl, rfl, C32_valid_partial order regular_order _ _ rfl rfl⟩

/-- `{ a: 1 (number), *x*: y (string) }` -/
def variableProperty : Elem := makeElement (.object
  [ prop (str "a") (makeElement (.number (str "1"))),
    (prop (str "x") (makeElement (.string (str "y")))).setAttributes [(str "variable", makeElement (.boolean true))] ])

theorem C32_variable_refuted : ¬ ∀ e v s re, generateJsonValue e = .ok v → generateJsonSchema e = .ok s →
    (∀ k, re (str "(?:)") k) → Valid re s v := by
  intro h
  have := h variableProperty (.obj [(str "a", .num (str "1")), (str "x", .str (str "y"))])
    (.obj [(str "$schema", .str (str "http://json-schema.org/draft-07/schema#")), (str "type", .str (str "object")),
      (str "properties", .obj [(str "a", .obj [(str "type", .str (str "number"))])]),
      (str "patternProperties", .obj [(str "(?:)", .obj [(str "type", .str (str "string"))])])]) (fun _ _ => True) (by rfl) (by rfl)
      (fun _ => trivial)
  rw [valid_obj] at this
  have h1 := this (str "patternProperties", .obj [(str "(?:)", .obj [(str "type", .str (str "string"))])]) (by simp)
  simp +decide [ValidKeyword, ValidPatterns, ValidPatternsM, ValidPattern, Valid, ValidKeywords, HasType] at h1
  exact h1 _ _ (.inl ⟨rfl, rfl⟩)

/-- Alternatives for two properties. -/
def alternatives : Elem := makeElement (.object
  [ makeElement (.select [makeElement (.option [prop (str "a") (makeElement (.string (str "1")))]),
      makeElement (.option [prop (str "b") (makeElement (.string (str "2")))])]) ])

theorem C32_alternatives_refuted : ¬ ∀ e v s re, generateJsonValue e = .ok v → generateJsonSchema e = .ok s → Valid re s v := by
  intro h
  have := h alternatives (.obj [(str "a", .str (str "1"))])
    (.obj [(str "$schema", .str (str "http://json-schema.org/draft-07/schema#")), (str "type", .str (str "object")),
      (str "allOf", .arr [.obj [(str "oneOf", .arr
        [.obj [(str "properties", .obj [(str "a", .obj [(str "type", .str (str "string"))])])],
         .obj [(str "properties", .obj [(str "b", .obj [(str "type", .str (str "string"))])])]])]])]) (fun _ _ => True) (by rfl) (by rfl)
  rw [valid_obj] at this
  have h1 := this _ (List.mem_cons_of_mem _ (List.mem_cons_of_mem _ List.mem_cons_self))
  simp +decide [ValidKeyword, ValidAll, EachValid, ValidOne, OneValid, SomeValid, Valid, ValidKeywords, HasType, ValidProperties,
    ValidPropertiesM, ValidProperty] at h1

/-- A fixed array with an item of type string. -/
def fixedArray : Elem := (makeElement (.array [makeEmpty .string])).setAttributes (typeAttrs ["fixed"])

theorem C32_fixed_array_refuted : ¬ ∀ e v s re, generateJsonValue e = .ok v → generateJsonSchema e = .ok s → Valid re s v := by
  intro h
  have := h fixedArray (.arr [])
    (.obj [(str "$schema", .str (str "http://json-schema.org/draft-07/schema#")), (str "type", .str (str "array")),
      (str "minItems", .num (str "1")), (str "items", .arr [.obj [(str "type", .str (str "string"))]]),
      (str "additionalItems", .fls)]) (fun _ _ => True) (by rfl) (by rfl)
  rw [valid_obj] at this
  have h1 := this (str "minItems", .num (str "1")) (by simp)
  simp +decide [ValidKeyword, IsCount] at h1

theorem C32_fixed_alternatives_refuted : ¬ ∀ e v s re, generateJsonValue e = .ok v → generateJsonSchema e = .ok s → Valid re s v := by
  intro h
  have := h (alternatives.setAttributes (typeAttrs ["fixed"])) (.obj [(str "a", .str (str "1"))])
    (.obj [(str "$schema", .str (str "http://json-schema.org/draft-07/schema#")), (str "type", .str (str "object")),
      (str "allOf", .arr [.obj [(str "oneOf", .arr
        [.obj [(str "properties", .obj [(str "a", .obj [(str "const", .str (str "1"))])]), (str "required", .arr [.str (str "a")])],
         .obj [(str "properties", .obj [(str "b", .obj [(str "const", .str (str "2"))])]), (str "required", .arr [.str (str "b")])]])]]),
      (str "additionalProperties", .fls)]) (fun _ _ => True) (by rfl) (by rfl)
  rw [valid_obj] at this
  have h1 := this (str "additionalProperties", .fls) (by simp)
  simp +decide [ValidKeyword, Declared, Valid] at h1

end Verif.Props
