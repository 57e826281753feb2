import Verif.Proof.Value
/-!
# C08, C09 – generated objects are ordered maps; equality of serialised values
-/
namespace Verif.Props
open Verif Verif.So Verif.Spec

/-- Build an object by inserting the given members in order. -/
def build (ops : List (Bytes × Value)) (c : List (Bytes × Value) := []) : List (Bytes × Value) :=
  ops.foldl (fun c p => emplaceUnique c p.1 p.2) c

/-- C08: after one insertion, the inserted key has the new value and every other key is unaffected. -/
theorem C08_insert_lookup (c : List (Bytes × Value)) (k : Bytes) (v : Value) :
    find (emplaceUnique c k v) k = some v ∧ ∀ k', k' ≠ k → find (emplaceUnique c k v) k' = find c k' := by
  refine ⟨by simp [find_emplace], fun k' h => by simp [find_emplace, h]⟩

/-- C08: the keys keep the order of their first insertion. -/
theorem C08_insert_keys (c : List (Bytes × Value)) (k : Bytes) (v : Value) :
    (emplaceUnique c k v).map (·.1) = if k ∈ c.map (·.1) then c.map (·.1) else c.map (·.1) ++ [k] :=
  keys_emplace c k v

/-- C08: for every history of insertions, looking a key up gives the last value written for it (nothing if there was
    none). -/
theorem C08_last_write_wins (ops : List (Bytes × Value)) (k : Bytes) :
    find (build ops) k = (ops.reverse.find? (fun p => p.1 == k)).map (·.2) := by
  have gen : ∀ (ops c : List (Bytes × Value)), find (build ops c) k
      = ((ops.reverse.find? (fun p => p.1 == k)).map (·.2)).or (find c k) := by
    intro ops
    induction ops with
    | nil => intro c; simp [build]
    | cons p r ih =>
      intro c
      have : build (p :: r) c = build r (emplaceUnique c p.1 p.2) := rfl
      rw [this, ih, find_emplace, List.reverse_cons, List.find?_append]
      by_cases h : k = p.1
      · subst h
        cases r.reverse.find? (fun q => q.1 == p.1) <;> simp
      · have h' : (p.1 == k) = false := by simp; exact fun e => h e.symm
        simp [h, h']
  rw [gen ops []]
  simp [find]

/-- C08: for every history of insertions there is exactly one member per inserted key, in order of first insertion. -/
theorem C08_one_member_per_key (ops : List (Bytes × Value)) :
    ((build ops).map (·.1)).Nodup ∧ (build ops).map (·.1) = (ops.map (·.1)).foldl (fun l k => if k ∈ l then l else l ++ [k]) [] := by
  have gen : ∀ (ops c : List (Bytes × Value)), (c.map (·.1)).Nodup → ((build ops c).map (·.1)).Nodup ∧
      (build ops c).map (·.1) = (ops.map (·.1)).foldl (fun l k => if k ∈ l then l else l ++ [k]) (c.map (·.1)) := by
    intro ops
    induction ops with
    | nil => intro c h; exact ⟨h, rfl⟩
    | cons p r ih =>
      intro c h
      have e : build (p :: r) c = build r (emplaceUnique c p.1 p.2) := rfl
      have hk := keys_emplace c p.1 p.2
      rw [e, List.map_cons, List.foldl_cons, ← hk]
      apply ih
      rw [hk]
      split
      · exact h
      · rename_i hn
        rw [List.nodup_append]
        refine ⟨h, by simp, ?_⟩
        intro a ha b hb
        simp at hb; subst hb
        intro hab; subst hab; exact hn ha
  exact gen ops [] (by simp)

example : build [(str "a", .null), (str "b", .tru), (str "a", .fls)] = [(str "a", .fls), (str "b", .tru)] := by
  simp [build, emplaceUnique, str, asc]

/-- C08 (arrays): unique insertion into an array keeps the order, never stores a value that is already there, and
    stores every value that is not. -/
theorem C08_array_unique (c : List Value) (v : Value) :
    ((∃ e ∈ c, eqV e v = true) ∧ emplaceUniqueA c v = c) ∨ ((∀ e ∈ c, eqV e v = false) ∧ emplaceUniqueA c v = c ++ [v]) := by
  unfold emplaceUniqueA
  split
  · rename_i h
    exact Or.inl ⟨by simpa using h, rfl⟩
  · rename_i h
    exact Or.inr ⟨by simpa using h, rfl⟩

/-- C09: equality is reflexive on all values. -/
theorem C09_refl (v : Value) : eqV v v = true := eqV_refl v

/-- C09: equality is transitive on all values. -/
theorem C09_trans (a b c : Value) (h1 : eqV a b = true) (h2 : eqV b c = true) : eqV a c = true := eqV_trans a b c h1 h2

/-- C09: values that differ only in the order of object members are equal (both ways round). -/
theorem C09_order_ignored (v w : Value) (h : Same v w) : eqV v w = true ∧ eqV w v = true := same_both v w h

/-- C09 (part): if no object in the left value repeats a key, equality holds exactly when the values differ only in
    the order of object members.  Missing: objects with repeated keys, where it fails, see `C09_symmetry_refuted`. -/
theorem C09_only_order_ignored_partial (v w : Value) (hu : UniqueKeys v) : eqV v w = true ↔ Same v w :=
  ⟨eqV_same v w hu, fun h => (same_both v w h).1⟩

/-- C09 (part): equality is symmetric when no object in the left value repeats a key. -/
theorem C09_symm_partial (v w : Value) (hu : UniqueKeys v) (h : eqV v w = true) : eqV w v = true :=
  (same_both v w (eqV_same v w hu h)).2

example : UniqueKeys (.obj [(str "a", .obj [(str "x", .null), (str "y", .tru)]), (str "b", .arr [.num (str "1")])]) := by
  simp [UniqueKeys, UniqueKeysM, UniqueKeysP, UniqueKeysE, str, asc]

/-- C09 refuted: with a repeated key, equality is not symmetric. -/
theorem C09_symmetry_refuted : ∃ v w, eqV v w = true ∧ eqV w v = false :=
  ⟨.obj [(str "a", .null), (str "a", .null)], .obj [(str "a", .null), (str "b", .null)], by decide, by decide⟩

end Verif.Props
