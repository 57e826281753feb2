import Verif.Proof.JsonValue
import Verif.Props.C30
/-!
# C31: generated JSON bodies
-/
namespace Verif.Props
open Verif Verif.Refract Verif.Spec Verif.JsonValue

/-- A pet with a required name, an optional age without a value and an optional colour with a sample. -/
def pet : Elem := makeElement (.object
  [ prop (str "name") ((makeEmpty .string).setAttributes [(str "default", makeElement (.string (str "Rex")))]),
    (prop (str "age") (makeEmpty .number)).setAttributes (typeAttrs ["optional"]),
    (prop (str "colour") ((makeEmpty .string).setAttributes
      [(str "samples", makeElement (.array [makeElement (.string (str "red")), makeElement (.string (str "blue"))])),
       (str "default", makeElement (.string (str "white")))])).setAttributes (typeAttrs ["optional"]),
    prop (str "tags") (makeElement (.array [makeElement (.string (str "a")), makeEmpty .string])) ])

/-- Generation ends for every element: with a body, or with a fault other than unbounded recursion. -/
theorem C31_terminates (e : Elem) : generateJsonValue e ≠ .error .fuel := (renderN_fuel _ e (by omega)).1 _

/-- In a generated body no object, at any depth, has two members with the same name, or a member without a name. -/
theorem C31_unique_keys (e : Elem) (v : So.Value) (h : generateJsonValue e = .ok v) : UniqueKeys v ∧ NamedKeys v :=
  inv_good.generate h

/-- A primitive is shown as its value, or else its first sample, or else its default, or else null if it is nullable, or else
    the value of its type. -/
theorem C31_primitive (e : Elem) (v : So.Value) (h : Shows e false v) : generateJsonValue e = .ok v := by
  rw [generate_full]; exact shows_full h false

/-- The same for the value of a property, where the property may be nullable too, in any object: if all the contents of an object are
    properties with different names, then the body has exactly those of them that are required or have a value, in order, with
    the values of the primitives chosen as above. -/
theorem C31_object_exact (e : Elem) (v : So.Value) (h : generateJsonValue e = .ok v) (ps : List (Elem × Bytes × Elem))
    (hd : e.data = .object (ps.map (·.1))) (hh : e.has = true) (hp : ∀ q ∈ ps, Property q.1 q.2.1 q.2.2)
    (hn : (ps.map (·.2.1)).Nodup) :
    ∃ ms, v = .obj ms ∧ List.Forall₂ (fun (q : Elem × Bytes × Elem) (p : Bytes × So.Value) => p.1 = q.2.1 ∧
        ∀ w, Shows q.2.2 (hasNullable q.1) w → p.2 = w)
      (ps.filter fun q => !hasOptional q.1 || definesValue q.2.2) ms := by
  rw [generate_full, full_value, valueStep, hd] at h
  simp only [Elem.empty, hh, Bool.not_true, Bool.false_eq_true, ↓reduceIte] at h
  obtain ⟨ms, hm, h⟩ := bind_ok.1 h
  cases h
  obtain ⟨ms', hr, hf⟩ := properties_exact _ ps hp hn [] ms hm (by simp)
  simp only [List.nil_append] at hr
  subst hr
  refine ⟨ms, rfl, hf.imp ?_⟩
  rintro q p ⟨h1, f, _, h2⟩
  refine ⟨h1, fun w hw => ?_⟩
  rw [shows_full hw] at h2
  cases h2; rfl

/-- Whatever else the object contains (mixins, references, alternatives), each property that is required or has a value is
    in the body. -/
theorem C31_contains (e : Elem) (v : So.Value) (h : generateJsonValue e = .ok v) (es : List Elem) (hd : e.data = .object es)
    (hh : e.has = true) : ∃ ms, v = .obj ms ∧ ∀ m ∈ es, ∀ k x, Present m k x → k ∈ ms.map (·.1) := by
  rw [generate_full, full_value, valueStep, hd] at h
  simp only [Elem.empty, hh, Bool.not_true, Bool.false_eq_true, ↓reduceIte] at h
  obtain ⟨ms, hm, h⟩ := bind_ok.1 h
  cases h
  exact ⟨ms, rfl, (properties_present _ es [] ms hm).2⟩

example : generateJsonValue pet = .ok (.obj [(str "name", .str (str "Rex")), (str "colour", .str (str "red")),
    (str "tags", .arr [.str (str "a")])]) := by rfl

example : Shows ((makeEmpty .string).setAttributes
      [(str "samples", makeElement (.array [makeElement (.string (str "red"))])), (str "default", makeElement (.string (str "white")))])
    false (.str (str "red")) :=
  .sample (.string []) rfl rfl (.value (.string (str "red")) rfl)

end Verif.Props
