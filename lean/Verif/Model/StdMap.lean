import Verif.Model.Bytes
/-!
# `std::map<std::string, V>`

A map is the list of its entries in iteration order.  `operator[]` on a missing key and `insert` put the new entry
before the first one with a greater key (`std::less<std::string>`: lexicographic order of unsigned characters).
-/
namespace Verif
open Verif

/-- `std::less<std::string>`. -/
def bytesLt : Bytes → Bytes → Bool
  | _, [] => false
  | [], _ :: _ => true
  | a :: r, b :: s => a < b || (a == b && bytesLt r s)

abbrev StdMap (V : Type) := List (Bytes × V)

namespace StdMap
variable {V : Type}

/-- `find`. -/
def find (m : StdMap V) (k : Bytes) : Option V :=
  match m with
  | [] => none
  | (k', v) :: r => if k' = k then some v else find r k

/-- `m[k] = v`. -/
def set (m : StdMap V) (k : Bytes) (v : V) : StdMap V :=
  match m with
  | [] => [(k, v)]
  | (k', v') :: r => if k' = k then (k, v) :: r else if bytesLt k k' then (k, v) :: (k', v') :: r else (k', v') :: set r k v

/-- `erase(k)`. -/
def erase (m : StdMap V) (k : Bytes) : StdMap V := m.filter fun p => p.1 ≠ k

def keys (m : StdMap V) : List Bytes := m.map (·.1)

theorem find_set (m : StdMap V) (k : Bytes) (v : V) (k' : Bytes) : (m.set k v).find k' = if k' = k then some v else m.find k' := by
  induction m with
  | nil => simp [set, find, eq_comm]
  | cons p r ih =>
    obtain ⟨q, w⟩ := p
    simp only [set]
    by_cases h : q = k
    · subst h; simp only [if_pos, find]
      by_cases h2 : q = k'
      · subst h2; simp
      · have : ¬ k' = q := fun e => h2 e.symm
        simp [h2, this]
    · rw [if_neg h]
      split
      · simp only [find]
        by_cases h2 : k = k'
        · subst h2; simp
        · have : ¬ k' = k := fun e => h2 e.symm
          simp [h2, this]
      · simp only [find, ih]
        by_cases h2 : q = k'
        · subst h2; simp [h]
        · simp [h2]

theorem find_isSome (m : StdMap V) (k : Bytes) : (m.find k).isSome = true ↔ k ∈ m.keys := by
  induction m with
  | nil => simp [find, keys]
  | cons p r ih =>
    obtain ⟨q, w⟩ := p
    simp only [find, keys, List.map_cons, List.mem_cons]
    by_cases h : q = k
    · simp [h]
    · have : ¬ k = q := fun e => h e.symm
      simp only [if_neg h, this, false_or]; exact ih

theorem find_none (m : StdMap V) (k : Bytes) : m.find k = none ↔ k ∉ m.keys := by
  rw [← find_isSome]; cases m.find k <;> simp

theorem mem_keys_set (m : StdMap V) (k : Bytes) (v : V) (k' : Bytes) : k' ∈ (m.set k v).keys ↔ k' = k ∨ k' ∈ m.keys := by
  rw [← find_isSome, ← find_isSome, find_set]
  by_cases h : k' = k <;> simp [h]

theorem find_erase (m : StdMap V) (k k' : Bytes) : (m.erase k).find k' = if k' = k then none else m.find k' := by
  induction m with
  | nil => simp [erase, find]
  | cons p r ih =>
    obtain ⟨q, w⟩ := p
    simp only [erase, List.filter_cons] at ih ⊢
    by_cases h : q = k
    · subst h
      simp only [ne_eq, not_true_eq_false, decide_false, Bool.false_eq_true, if_false, ih, find]
      by_cases h2 : k' = q
      · simp [h2]
      · have : ¬ q = k' := fun e => h2 e.symm
        simp [h2, this]
    · simp only [ne_eq, h, not_false_eq_true, decide_true, if_true, find, ih]
      by_cases h2 : q = k'
      · subst h2; simp [h]
      · simp [h2]

end StdMap
end Verif
