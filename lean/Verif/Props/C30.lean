import Verif.Proof.ElementSize
/-!
# C30: cardinality arithmetic

The full property is: sums and products never wrap, and the size computed for an element is exactly the number of values it
types (`Counts`, Spec/Cardinality.lean); in particular it is 1 only for elements with exactly one value.  The code computes
with 32-bit numbers that wrap around, so the property is false (`C30_wraps_refuted`, `C30_single_refuted`); it holds as long
as the exact count is small (`C30_small_partial`), and for all elements made of at most 20 parts (`C30_exact_partial`).
-/
namespace Verif.Props
open Verif Verif.Refract Verif.Spec

/-- `{"typeAttributes": [...]}` -/
def typeAttrs (l : List String) : Infos :=
  [(str "typeAttributes", makeElement (.array (l.map fun s => makeElement (.string (str s)))))]

/-- A property with a value. -/
def prop (k : Bytes) (v : Elem) : Elem := makeElement (.member (some (makeElement (.string k))) (some v))

/-- An object of fixed type, nullable, with `n` boolean properties. -/
def flags (n : Nat) : Elem :=
  (makeElement (.object ((List.range n).map fun i => prop [UInt8.ofNat i] (makeEmpty .boolean)))).setAttributes
    (typeAttrs ["fixedType", "nullable"])

/-- The computation of a size always terminates, with a size or with a fault other than running out of depth. -/
theorem C30_terminates (e : Elem) (f : Bool) : elementSize e f ≠ .error .fuel :=
  sizeOfN_fuel _ e f (Nat.le_refl _)

/-- Sums and products wrap around. -/
theorem C30_wraps_refuted :
    ¬ ((∀ a b : Cardinal, den (Cardinal.add a b) = den a + den b) ∧ (∀ a b : Cardinal, den (Cardinal.mul a b) = den a * den b)) := by
  intro ⟨_, h⟩
  have := h 65536 65536
  have h1 : Cardinal.mul 65536 65536 = 0 := by decide
  rw [h1, den_zero_iff.2 rfl] at this
  have h2 : den 65536 = 65536 := rfl
  rw [h2] at this
  exact absurd this (by norm_num)

/-- Sums and products are exact when they are infinite or below the largest machine number. -/
theorem C30_arithmetic_partial (a b : Cardinal) :
    (den a + den b = ⊤ ∨ den a + den b < 4294967295 → den (Cardinal.add a b) = den a + den b) ∧
    (den a * den b = ⊤ ∨ den a * den b < 4294967295 → den (Cardinal.mul a b) = den a * den b) :=
  ⟨den_add, den_mul⟩

example : den (Cardinal.mul 65535 65536) = 65535 * 65536 := (C30_arithmetic_partial 65535 65536).2 (.inr (by
  have h1 : den 65535 = 65535 := rfl
  have h2 : den 65536 = 65536 := rfl
  rw [h1, h2]; norm_num))

/-- Counting is well defined: an element has at most one exact count. -/
theorem C30_counts_unique (e : Elem) (f : Bool) (m n : ℕ∞) (h : Counts e f m) (h' : Counts e f n) : m = n := h.unique _ h'

/-- Every size computed belongs to an element with an exact count `n`, and is `n` if `n` is below the largest machine number. -/
theorem C30_small_partial (e : Elem) (f : Bool) (c : Cardinal) (h : elementSize e f = .ok c) :
    ∃ n, Counts e f n ∧ (n < 4294967295 → (c.toNat : ℕ∞) = n) :=
  closed_small.sizeOfN _ e f c h

/-- The size of an element made of at most 20 parts is exact, and infinite exactly if the element types infinitely many values. -/
theorem C30_exact_partial (e : Elem) (f : Bool) (c : Cardinal) (h : elementSize e f = .ok c) (hw : weight e ≤ 20) :
    ∃ n, Counts e f n ∧ den c = n := by
  obtain ⟨n, hn, hr⟩ := closed_exact.sizeOfN _ e f c h
  exact ⟨n, hn, hr.1 hw⟩

/-- In particular such an element has size 1 only if it types exactly one value. -/
theorem C30_single_partial (e : Elem) (f : Bool) (h : elementSize e f = .ok 1) (hw : weight e ≤ 20) : Counts e f 1 := by
  obtain ⟨n, hn, hr⟩ := C30_exact_partial e f 1 h hw
  have h1 : den 1 = 1 := rfl
  rw [h1] at hr
  exact hr ▸ hn

/-- An object with two booleans (and null). -/
example : weight (flags 2) ≤ 20 ∧ elementSize (flags 2) false = .ok 5 := by
  refine ⟨by decide +kernel, by rfl⟩

theorem counts_bool (f : Bool) : Counts (makeEmpty .boolean) f 2 := by
  have := Counts.boolOpen (e := makeEmpty .boolean) (f := f) (b := false) rfl (by
    have h1 : definesValue (makeEmpty .boolean) = false := by decide
    have h2 : hasFixed (makeEmpty .boolean) = false := by decide
    rw [h1, h2]; simp)
  have h3 : hasNullable (makeEmpty .boolean) = false := by decide
  simpa [orNull, h3] using this

/-- An object with 32 booleans that may be null types more than four billion values, but its computed size is 1, so that the
    schema generator takes it for a single value. -/
theorem C30_single_refuted : elementSize (flags 32) false = .ok 1 ∧ Counts (flags 32) false (2 ^ 32 + 1) := by
  refine ⟨by rfl, ?_⟩
  have h := Counts.object (e := flags 32) (f := false) (fun _ => 2) rfl (.inr (.inr (by decide +kernel))) rfl (by
    intro x hx
    have hx' : x ∈ (List.range 32).map fun i => prop [UInt8.ofNat i] (makeEmpty .boolean) := hx
    obtain ⟨i, _, rfl⟩ := List.mem_map.1 hx'
    have hm := Counts.member (e := prop [UInt8.ofNat i] (makeEmpty .boolean)) (f := false || hasFixed (flags 32)) rfl rfl rfl (counts_bool _)
    have hn : hasNullable (prop [UInt8.ofNat i] (makeEmpty .boolean)) = false := rfl
    simpa [orNull, hn] using hm)
  have hn : hasNullable (flags 32) = true := by decide +kernel
  simp only [orNull, hn, ↓reduceIte, List.map_map, List.map_const', List.prod_replicate, List.length_map, List.length_range] at h
  exact h

end Verif.Props
