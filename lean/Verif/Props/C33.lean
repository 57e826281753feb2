import Verif.Proof.SchemaForm
import Verif.Props.C31
/-!
# C33: generated JSON schemas are valid

The full property is `Every (fun ms => Formed ms ∧ Proper ms) v` for each generated schema `v` (Spec/Schema.lean).  The first
half holds (`C33_formed`).  The second is false (`C33_duplicate_refuted`, `C33_enum_refuted`): a property declared in an object and in
its mixin is declared and required twice, and an enumeration without members has an empty list of values.  It holds for
all the structures that are `Tidy` (`C33_proper_partial`).
-/
namespace Verif.Props
open Verif Verif.Refract Verif.Spec Verif.JsonSchema

/-- Generation ends for every element: with a schema, or with a fault other than unbounded recursion. -/
theorem C33_terminates (e : Elem) : generateJsonSchema e ≠ .error .fuel :=
  JsonValue.bind_fuel ((JsonSchema.renderN_fuel _ e (by omega)).1 _ _) fun _ _ => by simp

/-- A generated schema is an object that names draft 7 as its dialect. -/
theorem C33_dialect (e : Elem) (v : So.Value) (h : generateJsonSchema e = .ok v) :
    ∃ a, v = .obj ((str "$schema", .str (str "http://json-schema.org/draft-07/schema#")) :: a) := by
  obtain ⟨a, h, _⟩ := generate_good False (fun h => h.elim) h
  exact ⟨a, h⟩

/-- In a generated schema and all the schemas in it, each keyword occurs once and its value has the right form, and only declared
    properties are required. -/
theorem C33_formed (e : Elem) (v : So.Value) (h : generateJsonSchema e = .ok v) : Every Formed v := by
  obtain ⟨a, _, _, _, h⟩ := generate_good False (fun h => h.elim) h
  exact every_mono (fun _ h => h.1) v h

/-- If no object declares a property twice and no enumeration is empty, then in the schema and all the schemas in it the names of
    properties are different, so are the required ones, and enumerations and lists of alternatives are not empty. -/
theorem C33_proper_partial (e : Elem) (v : So.Value) (ht : Tidy none e) (h : generateJsonSchema e = .ok v) : Every Proper v := by
  obtain ⟨a, _, _, _, h⟩ := generate_good True (fun _ => ht) h
  exact every_mono (fun _ h => h.2 trivial) v h

/-- An object with a property and a mixin that has the same property. -/
def mixedTwice : Elem :=
  makeElement (.object
    [ (makeElement (.ref (str "A"))).setAttributes
        [(str "resolved", makeElement (.object [(prop (str "id") (makeEmpty .string)).setAttributes (typeAttrs ["required"])]))],
      (prop (str "id") (makeEmpty .number)).setAttributes (typeAttrs ["required"]) ])

theorem C33_duplicate_refuted : ¬ ∀ e v, generateJsonSchema e = .ok v → Every Proper v := by
  intro h
  have := h mixedTwice (.obj [(str "$schema", .str (str "http://json-schema.org/draft-07/schema#")), (str "type", .str (str "object")),
    (str "properties", .obj [(str "id", .obj [(str "type", .str (str "string"))]), (str "id", .obj [(str "type", .str (str "number"))])]),
    (str "required", .arr [.str (str "id"), .str (str "id")])]) (by rfl)
  have h1 := this.1.names _ (List.mem_cons_of_mem _ (List.mem_cons_of_mem _ List.mem_cons_self))
  exact absurd h1 (by decide)

theorem C33_enum_refuted : ¬ ∀ e v, generateJsonSchema e = .ok v → Every Proper v := by
  intro h
  have := h (makeEmpty .enum) (.obj [(str "$schema", .str (str "http://json-schema.org/draft-07/schema#")), (str "enum", .arr [])]) (by rfl)
  exact this.1.enum (by simp)

theorem tidy_pet : Tidy none pet := by
  refine .object (fun m => match m.data with | .member (some k) _ => (match k.data with | .string s => [s] | _ => []) | _ => []) rfl rfl ?_ (by decide +kernel)
  intro x hx
  simp only [List.mem_cons, List.not_mem_nil, or_false] at hx
  rcases hx with rfl | rfl | rfl | rfl
  · exact .property (n := str "name") rfl rfl rfl (by decide +kernel) (.string rfl)
  · exact .property (n := str "age") rfl rfl rfl (by decide +kernel) (.number rfl)
  · exact .property (n := str "colour") rfl rfl rfl (by decide +kernel) (.string rfl)
  · refine .property (n := str "tags") rfl rfl rfl (by decide +kernel) (.array rfl rfl (by simp) ?_)
    intro x hx
    simp only [List.mem_cons, List.not_mem_nil, or_false] at hx
    rcases hx with rfl | rfl <;> exact .string rfl

example : ∃ v, generateJsonSchema pet = .ok v ∧ Every Proper v ∧ Every Formed v := by
  refine ⟨_, rfl, ?_⟩
  exact ⟨C33_proper_partial pet _ tidy_pet rfl, C33_formed pet _ rfl⟩

end Verif.Props
