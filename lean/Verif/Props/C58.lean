import Verif.Model.ElementUtils
import Verif.Spec.Attributes
/-!
# C58: type attributes, samples and defaults are read where they are written
-/
namespace Verif.Props
open Verif Verif.Spec Verif.Refract

/-- C58: looking up a name gives the first entry under it, and nothing if there is none. -/
theorem C58_lookup (l : Infos) (k : Bytes) (x : Elem) : Infos.find l k = some x ↔ Entry l k x := by
  unfold Infos.find Entry
  rw [Option.map_eq_some_iff]
  constructor
  · rintro ⟨⟨a, b⟩, h, rfl⟩
    obtain ⟨h1, u, v, rfl, h2⟩ := List.find?_eq_some_iff_append.1 h
    simp only [decide_eq_true_eq] at h1
    subst h1
    exact ⟨u, v, rfl, fun p hp => by simpa using h2 p hp⟩
  · rintro ⟨u, v, rfl, hu⟩
    exact ⟨(k, x), List.find?_eq_some_iff_append.2 ⟨by simp, u, v, rfl, fun p hp => by simpa using hu p hp⟩, rfl⟩

theorem typeAttr_iff (e : Elem) (w : String) : hasTypeAttr e (str w) = true ↔ Flag e w := by
  unfold hasTypeAttr Flag
  constructor
  · intro h
    split at h
    · simp at h
    · rename_i t ht
      cases ha : asArray t with
      | none => simp [ha] at h
      | some es =>
        simp only [ha, List.any_eq_true] at h
        obtain ⟨x, hx, h⟩ := h
        have hd : t.data = .array es := by unfold asArray at ha; split at ha <;> simp_all
        refine ⟨t, es, x, (C58_lookup _ _ _).1 ht, hd, hx, ?_⟩
        split at h
        · rename_i s hs
          simp only [Bool.and_eq_true, beq_iff_eq] at h
          exact ⟨by rw [hs, h.2], h.1⟩
        · simp at h
  · rintro ⟨t, es, x, ht, hd, hx, hs, hh⟩
    rw [(C58_lookup _ _ _).2 ht]
    have ha : asArray t = some es := by simp [asArray, hd]
    simp only [ha, List.any_eq_true]
    exact ⟨x, hx, by simp [hs, hh]⟩

/-- C58: an element is fixed, of fixed type, required, optional or nullable if and only if that word is among its type
    attributes, and variable if and only if its attribute says so. -/
theorem C58_flags (e : Elem) :
    (hasFixed e = true ↔ Flag e "fixed") ∧ (hasFixedType e = true ↔ Flag e "fixedType") ∧ (hasRequired e = true ↔ Flag e "required") ∧
    (hasOptional e = true ↔ Flag e "optional") ∧ (hasNullable e = true ↔ Flag e "nullable") ∧
    (isVariable e = true ↔ Spec.Variable e) := by
  refine ⟨typeAttr_iff _ _, typeAttr_iff _ _, typeAttr_iff _ _, typeAttr_iff _ _, typeAttr_iff _ _, ?_⟩
  unfold isVariable Spec.Variable
  constructor
  · intro h
    split at h
    · simp at h
    · rename_i v hv
      split at h
      · rename_i b hb
        simp only [Bool.and_eq_true] at h
        exact ⟨v, (C58_lookup _ _ _).1 hv, by rw [hb, h.2], h.1⟩
      · simp at h
  · rintro ⟨v, hv, hd, hh⟩
    rw [(C58_lookup _ _ _).2 hv]
    simp [hd, hh]

/-- C58: the first sample and the default. -/
theorem C58_sample (e s : Elem) : findFirstSample e = some s ↔ FirstSample e s := by
  unfold findFirstSample FirstSample
  constructor
  · intro h
    split at h
    · simp at h
    · rename_i t ht
      cases ha : asArray t with
      | none => simp [ha] at h
      | some es =>
        have hd : t.data = .array es := by unfold asArray at ha; split at ha <;> simp_all
        simp only [ha] at h
        split at h
        · rename_i hh
          cases es with
          | nil => simp at h
          | cons x r => simp only [List.head?_cons, Option.some.injEq] at h; subst h; exact ⟨t, r, (C58_lookup _ _ _).1 ht, hd, hh⟩
        · simp at h
  · rintro ⟨t, r, ht, hd, hh⟩
    rw [(C58_lookup _ _ _).2 ht]
    simp [asArray, hd, hh]

theorem C58_default (e d : Elem) : (findDefault e = some d ↔ Default e d) ∧ (hasDefault e = true ↔ ∃ d, Default e d) := by
  refine ⟨C58_lookup _ _ _, ?_⟩
  unfold hasDefault findDefault Default
  simp only [Option.isSome_iff_exists, C58_lookup]

/-- C58: the value an element defines is its own content, or else its first sample, or else its default; it defines none exactly
    if it has none of them. -/
theorem C58_value (e x : Elem) : (findValue e = some x ↔ ValueOf e x) ∧ (definesValue e = true ↔ ∃ y, ValueOf e y) := by
  have main : ∀ x, findValue e = some x ↔ ValueOf e x := by
    intro x
    unfold findValue
    constructor
    · intro h
      split at h
      · rename_i hh; cases h; exact .own hh
      · rename_i hh
        split at h
        · rename_i s hs; cases h; exact .sample (by simpa using hh) ((C58_sample _ _).1 hs)
        · rename_i hs
          exact .default (by simpa using hh) (fun s h' => by rw [(C58_sample _ _).2 h'] at hs; simp at hs) ((C58_default e x).1.1 h)
    · intro h
      cases h with
      | own h => simp [h]
      | sample h hs => simp [h, (C58_sample _ _).2 hs]
      | default h hn hd =>
        have : findFirstSample e = none := by
          cases hf : findFirstSample e with
          | none => rfl
          | some s => exact absurd ((C58_sample _ _).1 hf) (hn s)
        simp [h, this, (C58_default e x).1.2 hd]
  refine ⟨main x, ?_⟩
  unfold definesValue
  simp only [Option.isSome_iff_exists, main]

/-- A string without content that is nullable, has a sample and a default. -/
def colour : Elem := (makeEmpty .string).setAttributes
  [(str "typeAttributes", makeElement (.array [makeElement (.string (str "nullable"))])),
   (str "samples", makeElement (.array [makeElement (.string (str "red"))])),
   (str "default", makeElement (.string (str "white")))]

/-- Its value is the sample. -/
example : Flag colour "nullable" ∧ ¬Flag colour "fixed" ∧ ValueOf colour (makeElement (.string (str "red"))) :=
  ⟨(typeAttr_iff _ _).1 (by decide +kernel), fun h => absurd ((typeAttr_iff _ _).2 h) (by decide +kernel), (C58_value _ _).1.1 rfl⟩

end Verif.Props
