import Verif.Spec.NamedTypes
import Mathlib.Data.Finset.Card
namespace Verif.NamedTypes
open Verif Verif.Spec

theorem mem_addAll (s l : Names) (x : Bytes) : x ∈ Names.addAll s l ↔ x ∈ s ∨ x ∈ l := by
  unfold Names.addAll
  induction l generalizing s with
  | nil => simp
  | cons a l ih =>
    simp only [List.foldl_cons, ih, List.mem_insert_iff, List.mem_cons]
    constructor
    · rintro ((h | h) | h)
      · exact .inr (.inl h)
      · exact .inl h
      · exact .inr (.inr h)
    · rintro (h | h | h)
      · exact .inl (.inr h)
      · exact .inl (.inl h)
      · exact .inr h

theorem get_set (t : DepTable) (k : Bytes) (v : Names) (k' : Bytes) : DepTable.get (StdMap.set t k v) k' = if k' = k then v else t.get k' := by
  simp only [DepTable.get, StdMap.find_set]
  split <;> rfl

theorem get_touch (t : DepTable) (k k' : Bytes) : (t.touch k).get k' = t.get k' := by
  unfold DepTable.touch
  split
  · rfl
  · rename_i h
    rw [get_set]
    split
    · rename_i he; subst he; simp [DepTable.get, h]
    · rfl

theorem keys_touch (t : DepTable) (k k' : Bytes) : k' ∈ StdMap.keys (t.touch k) ↔ k' = k ∨ k' ∈ StdMap.keys t := by
  unfold DepTable.touch
  split
  · rename_i h
    constructor
    · exact .inr
    · rintro (rfl | h')
      · exact (StdMap.find_isSome t k').1 (by simp [h])
      · exact h'
  · rw [StdMap.mem_keys_set]

theorem get_not_key (t : DepTable) (k : Bytes) (h : k ∉ StdMap.keys t) : t.get k = [] := by
  simp [DepTable.get, (StdMap.find_none t k).2 h]

/-! ## Dependency closure -/

/-- One round of the loop. -/
theorem gather_get (id : Bytes) (l : List Bytes) : ∀ (t : DepTable) (a x : Bytes),
    x ∈ (gather t id l).get a ↔ if a = id then x ∈ t.get id ∨ ∃ y ∈ l, x ∈ t.get y else x ∈ t.get a := by
  induction l with
  | nil => intro t a x; simp only [gather]; split <;> simp_all
  | cons y l ih =>
    intro t a x
    simp only [gather]
    rw [ih]
    by_cases ha : a = id
    · subst ha
      simp only [if_pos, get_set, get_touch, mem_addAll, List.mem_cons, exists_eq_or_imp]
      constructor
      · rintro ((h | h) | ⟨z, hz, h⟩)
        · exact .inl h
        · exact .inr (.inl h)
        · by_cases hza : z = a
          · rw [if_pos hza, mem_addAll] at h
            rcases h with h | h
            · exact .inl h
            · exact .inr (.inl h)
          · rw [if_neg hza] at h; exact .inr (.inr ⟨z, hz, h⟩)
      · rintro (h | h | ⟨z, hz, h⟩)
        · exact .inl (.inl h)
        · exact .inl (.inr h)
        · by_cases hza : z = a
          · subst hza; exact .inl (.inl h)
          · refine .inr ⟨z, hz, ?_⟩; rw [if_neg hza]; exact h
    · simp only [if_neg ha, get_set, get_touch]

/-- `a` has the dependencies of all its dependencies. -/
def Closed (t : DepTable) (a : Bytes) : Prop := ∀ x ∈ t.get a, ∀ y ∈ t.get x, y ∈ t.get a

/-- What resolving the entry `id` preserves and reaches. -/
structure Good (t t' : DepTable) (id : Bytes) : Prop where
  other : ∀ a, a ≠ id → t'.get a = t.get a
  mono : ∀ x ∈ t.get id, x ∈ t'.get id
  sound : ∀ x ∈ t'.get id, Reaches (fun a b => b ∈ t.get a) id x
  closed : Closed t' id

theorem round (t : DepTable) (id : Bytes) :
    (∀ a, a ≠ id → (gather (t.touch id) id ((t.touch id).get id)).get a = t.get a) ∧
    (∀ x, x ∈ (gather (t.touch id) id ((t.touch id).get id)).get id ↔ x ∈ t.get id ∨ ∃ y ∈ t.get id, x ∈ t.get y) := by
  have other : ∀ (l : List Bytes) (t : DepTable) a, a ≠ id → (gather t id l).get a = t.get a := by
    intro l
    induction l with
    | nil => intro t a _; rfl
    | cons y l ih => intro t a ha; simp only [gather]; rw [ih _ _ ha, get_set, if_neg ha, get_touch]
  refine ⟨fun a ha => by rw [other _ _ _ ha, get_touch], fun x => ?_⟩
  rw [gather_get]; simp only [if_pos, get_touch]

/-- All names in the sets of the table. -/
def allNames (t : DepTable) : Finset Bytes := (t.flatMap (·.2)).toFinset

theorem mem_get_allNames (t : DepTable) (a x : Bytes) (h : x ∈ t.get a) : x ∈ allNames t := by
  simp only [DepTable.get] at h
  induction t with
  | nil => simp [StdMap.find] at h
  | cons p r ih =>
    obtain ⟨k, v⟩ := p
    simp only [StdMap.find] at h
    simp only [allNames, List.flatMap_cons, List.toFinset_append, Finset.mem_union, List.mem_toFinset] at ih ⊢
    split at h
    · exact .inl h
    · exact .inr (ih h)

/-- Termination and correctness of one entry, by the number of names still missing in a bound `U`. -/
theorem resolveDep_spec (id : Bytes) (U : Finset Bytes) (n : Nat) : ∀ (t : DepTable),
    (∀ a x, x ∈ t.get a → x ∈ U) → (U \ (t.get id).toFinset).card ≤ n → ∃ t', resolveDep t id = some t' ∧ Good t t' id := by
  induction n with
  | zero =>
    intro t hU hn
    obtain ⟨r1, r2⟩ := round t id
    have hfull : ∀ x ∈ U, x ∈ t.get id := by
      intro x hx
      have : U \ (t.get id).toFinset = ∅ := Finset.card_eq_zero.1 (by omega)
      by_contra hc
      have hm : x ∈ U \ (t.get id).toFinset := by simp [hx, hc]
      rw [this] at hm; simp at hm
    have heq : ∀ x, x ∈ (gather (t.touch id) id ((t.touch id).get id)).get id ↔ x ∈ t.get id := by
      intro x; rw [r2]
      constructor
      · rintro (h | ⟨y, _, h⟩)
        · exact h
        · exact hfull x (hU y x h)
      · exact .inl
    refine ⟨gather (t.touch id) id ((t.touch id).get id), ?_, r1, fun x hx => (heq x).2 hx, fun x hx => .single ((heq x).1 hx), ?_⟩
    · rw [resolveDep]
      rw [if_neg]
      simp only [List.any_eq_true, not_exists, not_and]
      intro x hx
      rw [get_touch]
      simpa using (heq x).1 hx
    · intro x hx y hy
      rw [heq]
      apply hfull
      by_cases hxi : x = id
      · subst hxi; exact hU x y ((heq y).1 hy)
      · rw [r1 x hxi] at hy; exact hU x y hy
  | succ n ih =>
    intro t hU hn
    obtain ⟨r1, r2⟩ := round t id
    generalize hg : gather (t.touch id) id ((t.touch id).get id) = g at r1 r2
    by_cases hgrow : (g.get id).any (fun x => !((t.touch id).get id).contains x) = true
    · have hU' : ∀ a x, x ∈ g.get a → x ∈ U := by
        intro a x hx
        by_cases ha : a = id
        · subst ha
          rcases (r2 x).1 hx with h | ⟨y, _, h⟩
          · exact hU a x h
          · exact hU y x h
        · rw [r1 a ha] at hx; exact hU a x hx
      have hcard : (U \ (g.get id).toFinset).card ≤ n := by
        obtain ⟨x, hx, hnx⟩ := List.any_eq_true.1 hgrow
        rw [get_touch] at hnx
        have hxn : x ∉ t.get id := by simpa using hnx
        have hss : U \ (g.get id).toFinset ⊂ U \ (t.get id).toFinset := by
          rw [Finset.ssubset_iff_of_subset]
          · exact ⟨x, by simp [hU' id x hx, hxn], by simp [hx]⟩
          · intro y hy
            simp only [Finset.mem_sdiff, List.mem_toFinset] at hy ⊢
            exact ⟨hy.1, fun h => hy.2 ((r2 y).2 (.inl h))⟩
        have := Finset.card_lt_card hss
        omega
      obtain ⟨t', h1, h2⟩ := ih g hU' hcard
      refine ⟨t', ?_, ?_, ?_, ?_, h2.closed⟩
      · rw [resolveDep]; simp only [hg]; rw [if_pos hgrow]; exact h1
      · intro a ha; rw [h2.other a ha, r1 a ha]
      · intro x hx; exact h2.mono x ((r2 x).2 (.inl hx))
      · intro x hx
        have hs := h2.sound x hx
        clear hx
        have step : ∀ a b, b ∈ g.get a → Reaches (fun a b => b ∈ t.get a) a b := by
          intro a b hab
          by_cases ha : a = id
          · subst ha
            rcases (r2 b).1 hab with h | ⟨y, hy, h⟩
            · exact .single h
            · exact .tail (.single hy) h
          · rw [r1 a ha] at hab; exact .single hab
        induction hs with
        | single h => exact step _ _ h
        | tail _ h ih2 => exact ih2.trans (step _ _ h)
    · have heq : ∀ x, x ∈ g.get id ↔ x ∈ t.get id := by
        intro x
        refine ⟨fun hx => ?_, fun h => (r2 x).2 (.inl h)⟩
        by_contra hc
        exact hgrow (List.any_eq_true.2 ⟨x, hx, by rw [get_touch]; simpa using hc⟩)
      refine ⟨g, ?_, r1, fun x hx => (heq x).2 hx, fun x hx => .single ((heq x).1 hx), ?_⟩
      · rw [resolveDep]; simp only [hg]; rw [if_neg hgrow]
      · intro x hx y hy
        rw [heq] at hx
        by_cases hxi : x = id
        · subst hxi; exact hy
        · rw [r1 x hxi] at hy; exact (r2 y).2 (.inr ⟨x, hx, hy⟩)

theorem resolveDep_good (t : DepTable) (id : Bytes) : ∃ t', resolveDep t id = some t' ∧ Good t t' id :=
  resolveDep_spec id (allNames t) _ t (mem_get_allNames t) le_rfl

/-- Visiting an empty entry does nothing. -/
theorem resolveDep_empty (t : DepTable) (id : Bytes) (h : StdMap.find t id = some []) : resolveDep t id = some t := by
  have ht : t.touch id = t := by simp [DepTable.touch, h]
  have hg : t.get id = [] := by simp [DepTable.get, h]
  rw [resolveDep]; simp only [ht, hg, gather]; simp

/-- The whole loop: every listed entry becomes closed, closed entries stay closed. -/
theorem resolveDeps_spec (ks : List Bytes) : ∀ (t : DepTable), ∃ t', resolveDeps t ks = some t' ∧
    (∀ a x, x ∈ t.get a → x ∈ t'.get a) ∧ (∀ a x, x ∈ t'.get a → Reaches (fun a b => b ∈ t.get a) a x) ∧
    (∀ a, a ∈ ks ∨ Closed t a → Closed t' a) := by
  induction ks with
  | nil => intro t; exact ⟨t, rfl, fun _ _ h => h, fun _ _ h => .single h, fun a h => by simpa using h⟩
  | cons k ks ih =>
    intro t
    obtain ⟨t1, h1, g⟩ := resolveDep_good t k
    obtain ⟨t2, h2, m2, s2, c2⟩ := ih t1
    have mono1 : ∀ a x, x ∈ t.get a → x ∈ t1.get a := by
      intro a x hx
      by_cases ha : a = k
      · subst ha; exact g.mono x hx
      · rw [g.other a ha]; exact hx
    have sound1 : ∀ a x, x ∈ t1.get a → Reaches (fun a b => b ∈ t.get a) a x := by
      intro a x hx
      by_cases ha : a = k
      · subst ha; exact g.sound x hx
      · rw [g.other a ha] at hx; exact .single hx
    refine ⟨t2, by simp [resolveDeps, h1, h2], fun a x hx => m2 a x (mono1 a x hx), ?_, ?_⟩
    · intro a x hx
      have := s2 a x hx
      clear hx
      induction this with
      | single h => exact sound1 _ _ h
      | tail _ h ih2 => exact ih2.trans (sound1 _ _ h)
    · intro a ha
      apply c2
      by_cases hak : a = k
      · subst hak; exact .inr g.closed
      · rcases ha with ha | ha
        · rcases List.mem_cons.1 ha with h | h
          · exact absurd h hak
          · exact .inl h
        · right
          -- closed entries stay closed when the entry k grows
          have reach : ∀ b x, b ∈ t.get a → Reaches (fun a b => b ∈ t.get a) b x → x ∈ t.get a := by
            intro b x hb hr
            induction hr with
            | single h => exact ha b hb _ h
            | tail _ h ih2 => exact ha _ ih2 _ h
          intro x hx y hy
          rw [g.other a hak] at hx ⊢
          exact reach x y hx (sound1 x y hy)

/-- The resolved table is the reachability relation of the table it started from. -/
theorem resolve_all (t : DepTable) : ∃ t', resolveDeps t (StdMap.keys t) = some t' ∧
    ∀ a b, b ∈ t'.get a ↔ Reaches (fun a b => b ∈ t.get a) a b := by
  obtain ⟨t', h1, h2, h3, h4⟩ := resolveDeps_spec (StdMap.keys t) t
  refine ⟨t', h1, fun a b => ⟨h3 a b, fun hr => ?_⟩⟩
  have hclosed : ∀ a, Closed t' a := by
    intro a
    apply h4
    by_cases ha : a ∈ StdMap.keys t
    · exact .inl ha
    · right; intro x hx; rw [get_not_key t a ha] at hx; simp at hx
  induction hr with
  | single h => exact h2 _ _ h
  | tail _ h ih => exact hclosed a _ ih _ (h2 _ _ h)

/-! ## addDependency -/

/-- The table holds exactly the reachability of `R`. -/
def Represents (t : DepTable) (R : Bytes → Bytes → Prop) : Prop := ∀ a b, b ∈ t.get a ↔ Reaches R a b

theorem get_map (t : DepTable) (f : Bytes → Names → Names) (k : Bytes) (hk : k ∈ StdMap.keys t) :
    DepTable.get (t.map fun p => (p.1, f p.1 p.2)) k = f k (t.get k) := by
  simp only [DepTable.get]
  induction t with
  | nil => simp [StdMap.keys] at hk
  | cons p r ih =>
    obtain ⟨q, v⟩ := p
    simp only [List.map_cons, StdMap.find]
    by_cases h : q = k
    · subst h; simp
    · simp only [if_neg h]
      apply ih
      simp only [StdMap.keys, List.map_cons, List.mem_cons] at hk
      exact hk.resolve_left (fun e => h e.symm)

/-- Reachability after adding the edge `(D, P)`. -/
theorem reaches_add (R : Bytes → Bytes → Prop) (D P a b : Bytes) :
    Reaches (fun x y => R x y ∨ (x = D ∧ y = P)) a b ↔
      Reaches R a b ∨ ((a = D ∨ Reaches R a D) ∧ (b = P ∨ Reaches R P b)) := by
  constructor
  · intro h
    induction h with
    | single h =>
      rcases h with h | ⟨rfl, rfl⟩
      · exact .inl (.single h)
      · exact .inr ⟨.inl rfl, .inl rfl⟩
    | tail _ h ih =>
      rcases h with h | ⟨rfl, rfl⟩
      · rcases ih with ih | ⟨h1, h2⟩
        · exact .inl (.tail ih h)
        · refine .inr ⟨h1, .inr ?_⟩
          rcases h2 with rfl | h2
          · exact .single h
          · exact .tail h2 h
      · rcases ih with ih | ⟨h1, _⟩
        · exact .inr ⟨.inr ih, .inl rfl⟩
        · exact .inr ⟨h1, .inl rfl⟩
  · have lift : ∀ a b, Reaches R a b → Reaches (fun x y => R x y ∨ (x = D ∧ y = P)) a b :=
      fun a b h => Relation.TransGen.mono (fun _ _ h => Or.inl h) _ _ h
    rintro (h | ⟨h1, h2⟩)
    · exact lift a b h
    · have e : Reaches (fun x y => R x y ∨ (x = D ∧ y = P)) D P := .single (.inr ⟨rfl, rfl⟩)
      have h1' : Reaches (fun x y => R x y ∨ (x = D ∧ y = P)) a P := by
        rcases h1 with rfl | h1
        · exact e
        · exact (lift _ _ h1).trans e
      rcases h2 with rfl | h2
      · exact h1'
      · exact h1'.trans (lift _ _ h2)

/-- Exact effect of `addDependency` on a table that represents a relation. -/
theorem addDependency_spec (t : DepTable) (R : Bytes → Bytes → Prop) (hR : Represents t R) (P D : Bytes) (check : Bool) :
    (P ∉ StdMap.keys t → addDependency t P D check = .error (.undefinedType P)) ∧
    (P ∈ StdMap.keys t → check = true → (D = P ∨ Reaches R P D) → addDependency t P D check = .error (.circular D)) ∧
    (P ∈ StdMap.keys t → ¬ (check = true ∧ (D = P ∨ Reaches R P D)) →
      ∃ t', addDependency t P D check = .ok t' ∧ Represents t' (fun x y => R x y ∨ (x = D ∧ y = P)) ∧
        ∀ k, k ∈ StdMap.keys t' ↔ k = D ∨ k ∈ StdMap.keys t) := by
  refine ⟨?_, ?_, ?_⟩
  · intro h
    rw [addDependency, (StdMap.find_none t P).2 h]
  all_goals
    intro hP
    have hs := (StdMap.find_isSome t P).2 hP
    obtain ⟨deps, hdeps⟩ := Option.isSome_iff_exists.1 hs
    have hget : t.get P = deps := by simp [DepTable.get, hdeps]
    have hmem : ∀ x, x ∈ deps ↔ Reaches R P x := fun x => by rw [← hget]; exact hR P x
    simp only [addDependency, hdeps]
  · intro hc hcyc
    rw [if_pos]
    rcases hcyc with h | h
    · simp [hc, h]
    · have := (hmem D).2 h; simp [hc, this]
  · intro hn
    have hn' : ¬ (check && (D == P || deps.contains D)) = true := by
      simp only [Bool.and_eq_true, Bool.or_eq_true, beq_iff_eq, List.contains_iff_mem]
      rw [hmem]; exact hn
    rw [if_neg hn']
    by_cases hpre : (((t.touch D).get D).contains P) = true
    · rw [if_pos hpre]
      refine ⟨_, rfl, ?_, fun k => keys_touch t D k⟩
      intro a b
      rw [get_touch, hR a b, reaches_add]
      rw [get_touch, List.contains_iff_mem, hR] at hpre
      constructor
      · exact .inl
      · rintro (h | ⟨h1, h2⟩)
        · exact h
        · have h1' : Reaches R a P := by
            rcases h1 with rfl | h1
            · exact hpre
            · exact h1.trans hpre
          rcases h2 with rfl | h2
          · exact h1'
          · exact h1'.trans h2
    · rw [if_neg hpre]
      let f : Bytes → Names → Names := fun k s => if k == D || s.contains D then Names.addAll (s.insert P) deps else s
      have hmap : ((t.touch D).map fun p => if p.1 == D || p.2.contains D then (p.1, Names.addAll (p.2.insert P) deps) else p)
          = (t.touch D).map fun p => (p.1, f p.1 p.2) := by
        apply List.map_congr_left
        intro p _
        simp only [f]
        by_cases h : (p.1 == D || p.2.contains D) = true
        · rw [if_pos h, if_pos h]
        · rw [if_neg h, if_neg h]
      rw [hmap]
      refine ⟨_, rfl, ?_, ?_⟩
      · intro a b
        rw [reaches_add]
        by_cases ha : a ∈ StdMap.keys (t.touch D)
        · rw [get_map _ f a ha, get_touch]
          simp only [f]
          by_cases hc : (a == D || (t.get a).contains D) = true
          · rw [if_pos hc, mem_addAll, List.mem_insert_iff, hmem, hR a b]
            have hc' : a = D ∨ Reaches R a D := by
              simp only [Bool.or_eq_true, beq_iff_eq, List.contains_iff_mem] at hc
              rw [hR] at hc; exact hc
            constructor
            · rintro ((h | h) | h)
              · exact .inr ⟨hc', .inl h⟩
              · exact .inl h
              · exact .inr ⟨hc', .inr h⟩
            · rintro (h | ⟨_, h | h⟩)
              · exact .inl (.inr h)
              · exact .inl (.inl h)
              · exact .inr h
          · rw [if_neg hc, hR a b]
            have hc' : ¬ (a = D ∨ Reaches R a D) := by
              simp only [Bool.or_eq_true, beq_iff_eq, List.contains_iff_mem] at hc
              rw [hR] at hc; exact hc
            constructor
            · exact .inl
            · rintro (h | ⟨h, _⟩)
              · exact h
              · exact absurd h hc'
        · have hna : a ∉ StdMap.keys ((t.touch D).map fun p => (p.1, f p.1 p.2)) := by
            simpa [StdMap.keys, Function.comp_def] using ha
          rw [get_not_key _ a hna]
          rw [keys_touch, not_or] at ha
          have h0 : ∀ b, ¬ Reaches R a b := by
            intro b hb; rw [← hR, get_not_key t a ha.2] at hb; simp at hb
          simp [h0, ha.1]
      · intro k
        rw [← keys_touch t D k]
        simp [StdMap.keys, Function.comp_def]

/-! ## Filling -/

/-- Without a circularity check only entries that are or contain the dependent change. -/
theorem addDependency_other (t t' : DepTable) (P D : Bytes) (h : addDependency t P D false = .ok t') :
    (∀ a, a ≠ D → D ∉ t.get a → t'.get a = t.get a) ∧ (∀ k, k ∈ StdMap.keys t' ↔ k = D ∨ k ∈ StdMap.keys t) ∧
    (∀ a x, x ∈ t'.get a → x ∈ t.get a ∨ x = P ∨ x ∈ t.get P) := by
  simp only [addDependency] at h
  split at h
  · simp at h
  · rename_i deps hdeps
    have hget : t.get P = deps := by simp [DepTable.get, hdeps]
    simp only [Bool.false_and, Bool.false_eq_true, if_false] at h
    by_cases hpre : (((t.touch D).get D).contains P) = true
    · rw [if_pos hpre] at h
      simp at h; subst h
      exact ⟨fun a _ _ => get_touch t D a, fun k => keys_touch t D k, fun a x hx => .inl (by rwa [get_touch] at hx)⟩
    · rw [if_neg hpre] at h
      simp only [Except.ok.injEq] at h
      let f : Bytes → Names → Names := fun k s => if k == D || s.contains D then Names.addAll (s.insert P) deps else s
      have hmap : ((t.touch D).map fun p => if p.1 == D || p.2.contains D then (p.1, Names.addAll (p.2.insert P) deps) else p)
          = (t.touch D).map fun p => (p.1, f p.1 p.2) := by
        apply List.map_congr_left
        intro p _
        simp only [f]
        by_cases h : (p.1 == D || p.2.contains D) = true
        · rw [if_pos h, if_pos h]
        · rw [if_neg h, if_neg h]
      rw [hmap] at h
      have hkeys : ∀ k, k ∈ StdMap.keys t' ↔ k ∈ StdMap.keys (t.touch D) := by
        intro k; rw [← h]; simp [StdMap.keys, Function.comp_def]
      have hget' : ∀ a, t'.get a = if a ∈ StdMap.keys (t.touch D) then f a (t.get a) else [] := by
        intro a
        split
        · rename_i ha; rw [← h, get_map _ f a ha, get_touch]
        · rename_i ha; exact get_not_key t' a (by rw [hkeys]; exact ha)
      refine ⟨?_, fun k => by rw [hkeys]; exact keys_touch t D k, ?_⟩
      · intro a ha hd
        rw [hget']
        split
        · simp [f, ha, hd]
        · rename_i hk
          rw [keys_touch, not_or] at hk
          rw [get_not_key t a hk.2]
      · intro a x hx
        rw [hget'] at hx
        split at hx
        · simp only [f] at hx
          split at hx
          · rw [mem_addAll, List.mem_insert_iff] at hx
            rw [hget]
            rcases hx with (h | h) | h
            · exact .inr (.inl h)
            · exact .inl h
            · exact .inr (.inr h)
          · exact .inl hx
        · simp at hx

/-- The tables hold exactly what the declarations say (up to the entry of the empty name). -/
structure Filled (s : Tables) (ds : List Decl) : Prop where
  noError : s.error = none
  keys : ∀ a, a ≠ [] → (a ∈ StdMap.keys s.dep ↔ ∃ d ∈ ds, d.identifier = a)
  dep : ∀ a, a ≠ [] → ∀ b, b ∈ s.dep.get a ↔ Refers ds a b
  noEmpty : ∀ a, [] ∉ s.dep.get a
  base : ∀ a b, StdMap.find s.base a = some b ↔ ∃ d ∈ ds, d.identifier = a ∧ ownBase d = some b
  inh : ∀ a p, StdMap.find s.inh a = some p ↔ ∃ d ∈ ds, d.identifier = a ∧ parent d = some p

theorem references_noEmpty (d : Decl) : [] ∉ references d := by
  obtain ⟨i, ⟨b, l, v⟩, n⟩ := d
  cases b with
  | none => simp only [references, parent]; split <;> simp_all
  | some b =>
    cases b <;> simp [references]
    all_goals exact fun x _ h _ => h

theorem fill_filled (s : Tables) (ds : List Decl) (d : Decl) (h : Filled s ds) (hne : d.identifier ≠ [])
    (hnew : ∀ d' ∈ ds, d'.identifier ≠ d.identifier) : Filled (fill s d) (ds ++ [d]) := by
  let dep := match parseTypeDefinition s.dep s.base d.type [] with | .ok t => t | .error _ => s.dep
  have hdep : (∀ a, a ≠ [] → dep.get a = s.dep.get a) ∧ (∀ a, a ≠ [] → (a ∈ StdMap.keys dep ↔ a ∈ StdMap.keys s.dep)) ∧ (∀ a, [] ∉ dep.get a) := by
    simp only [dep]
    split
    · rename_i t ht
      simp only [parseTypeDefinition] at ht
      split at ht
      · rename_i hc
        obtain ⟨h1, h2, h3⟩ := addDependency_other _ _ _ _ ht
        refine ⟨fun a ha => h1 a ha (h.noEmpty a), fun a ha => by rw [h2]; simp [ha], fun a hx => ?_⟩
        rcases h3 a _ hx with h' | h' | h'
        · exact h.noEmpty _ h'
        · exact hc.2.2.1 h'.symm
        · exact h.noEmpty _ h'
      · simp at ht; subst ht; exact ⟨fun _ _ => rfl, fun _ _ => Iff.rfl, h.noEmpty⟩
    · exact ⟨fun _ _ => rfl, fun _ _ => Iff.rfl, h.noEmpty⟩
  obtain ⟨hd1, hd2, hd3⟩ := hdep
  have hnk : StdMap.find dep d.identifier = none := by
    rw [StdMap.find_none, hd2 _ hne, h.keys _ hne]
    rintro ⟨d', hd', he⟩; exact hnew d' hd' he
  -- what the new tables have to be
  have key : ∀ (names : Names) (base' : StdMap BaseType) (inh' : StdMap Bytes), (∀ x, x ∈ names ↔ x ∈ references d) →
      (∀ a, StdMap.find base' a = if a = d.identifier then (ownBase d).or (StdMap.find s.base a) else StdMap.find s.base a) →
      (∀ a, StdMap.find inh' a = if a = d.identifier then (parent d).or (StdMap.find s.inh a) else StdMap.find s.inh a) →
      Filled { dep := StdMap.set dep d.identifier names, base := base', inh := inh', error := s.error } (ds ++ [d]) := by
    intro names base' inh' hn hb hi
    refine ⟨h.noError, ?_, ?_, ?_, ?_, ?_⟩
    · intro a ha
      show a ∈ StdMap.keys (StdMap.set dep d.identifier names) ↔ _
      rw [StdMap.mem_keys_set, hd2 a ha, h.keys a ha]
      constructor
      · rintro (rfl | ⟨d', hd', he⟩)
        · exact ⟨d, by simp, rfl⟩
        · exact ⟨d', by simp [hd'], he⟩
      · rintro ⟨d', hd', he⟩
        rcases List.mem_append.1 hd' with hd' | hd'
        · exact .inr ⟨d', hd', he⟩
        · simp at hd'; subst hd'; exact .inl he.symm
    · intro a ha b
      show b ∈ DepTable.get (StdMap.set dep d.identifier names) a ↔ _
      rw [get_set]
      split
      · rename_i he; subst he
        rw [hn]
        constructor
        · intro hb; exact ⟨d, by simp, rfl, hb⟩
        · rintro ⟨d', hd', he, hb2⟩
          rcases List.mem_append.1 hd' with hd' | hd'
          · exact absurd he (hnew d' hd')
          · simp at hd'; subst hd'; exact hb2
      · rename_i he
        rw [hd1 a ha, h.dep a ha]
        constructor
        · rintro ⟨d', hd', he', hb⟩; exact ⟨d', by simp [hd'], he', hb⟩
        · rintro ⟨d', hd', he', hb⟩
          rcases List.mem_append.1 hd' with hd' | hd'
          · exact ⟨d', hd', he', hb⟩
          · simp at hd'; subst hd'; exact absurd he'.symm he
    · intro a
      show [] ∉ DepTable.get (StdMap.set dep d.identifier names) a
      rw [get_set]
      split
      · rw [hn]; exact references_noEmpty d
      · exact hd3 a
    · intro a b
      show StdMap.find base' a = some b ↔ _
      rw [hb]
      split
      · rename_i he; subst he
        have hno : StdMap.find s.base d.identifier = none := by
          cases hf : StdMap.find s.base d.identifier with
          | none => rfl
          | some b' => obtain ⟨d', hd', he, _⟩ := (h.base _ _).1 hf; exact absurd he (hnew d' hd')
        rw [hno, Option.or_none]
        constructor
        · intro hb; exact ⟨d, by simp, rfl, hb⟩
        · rintro ⟨d', hd', he, hb2⟩
          rcases List.mem_append.1 hd' with hd' | hd'
          · exact absurd he (hnew d' hd')
          · simp at hd'; subst hd'; exact hb2
      · rename_i he
        rw [h.base]
        constructor
        · rintro ⟨d', hd', he', hb⟩; exact ⟨d', by simp [hd'], he', hb⟩
        · rintro ⟨d', hd', he', hb⟩
          rcases List.mem_append.1 hd' with hd' | hd'
          · exact ⟨d', hd', he', hb⟩
          · simp at hd'; subst hd'; exact absurd he'.symm he
    · intro a b
      show StdMap.find inh' a = some b ↔ _
      rw [hi]
      split
      · rename_i he; subst he
        have hno : StdMap.find s.inh d.identifier = none := by
          cases hf : StdMap.find s.inh d.identifier with
          | none => rfl
          | some b' => obtain ⟨d', hd', he, _⟩ := (h.inh _ _).1 hf; exact absurd he (hnew d' hd')
        rw [hno, Option.or_none]
        constructor
        · intro hb; exact ⟨d, by simp, rfl, hb⟩
        · rintro ⟨d', hd', he, hb2⟩
          rcases List.mem_append.1 hd' with hd' | hd'
          · exact absurd he (hnew d' hd')
          · simp at hd'; subst hd'; exact hb2
      · rename_i he
        rw [h.inh]
        constructor
        · rintro ⟨d', hd', he', hb⟩; exact ⟨d', by simp [hd'], he', hb⟩
        · rintro ⟨d', hd', he', hb⟩
          rcases List.mem_append.1 hd' with hd' | hd'
          · exact ⟨d', hd', he', hb⟩
          · simp at hd'; subst hd'; exact absurd he'.symm he
  have hfill : fill s d = (match d.type.base with
    | some b =>
      { s with
        dep := StdMap.set dep d.identifier (if b = .array ∨ b = .enum then
          Names.addAll [] ((d.nested.filter fun n => n.literal ≠ [] ∧ n.isVariable = false).map (·.literal)) else [])
        base := StdMap.set s.base d.identifier (parseBaseType b) }
    | none =>
      if d.type.literal ≠ [] ∧ d.type.isVariable = false then
        { s with dep := StdMap.set dep d.identifier [d.type.literal], inh := StdMap.set s.inh d.identifier d.type.literal }
      else if d.type.literal = [] ∧ d.type.isVariable = false then
        { s with dep := StdMap.set dep d.identifier [], base := StdMap.set s.base d.identifier .implicitObject }
      else { s with dep := StdMap.set dep d.identifier [] }) := by
    have : fill s d = match StdMap.find dep d.identifier with
      | some _ => { s with dep := dep, error := some (.duplicate d.identifier) }
      | none => _ := rfl
    rw [this, hnk]
    rfl
  rw [hfill]
  have hnone : ∀ (V : Type) (m : StdMap V) a, StdMap.find m a = if a = d.identifier then (none : Option V).or (StdMap.find m a) else StdMap.find m a := by
    intro V m a; split <;> simp
  cases hb : d.type.base with
  | some b =>
    have hpar : parent d = none := by simp [parent, hb]
    simp only
    apply key
    · intro x
      cases b <;> simp [references, hb, mem_addAll]
    · intro a
      rw [StdMap.find_set]
      split
      · cases b <;> simp [ownBase, hb, parseBaseType]
      · rfl
    · intro a; rw [hpar]; exact hnone _ _ a
  | none =>
    simp only
    split
    · rename_i hc
      have hpar : parent d = some d.type.literal := by simp [parent, hb, hc]
      have hown : ownBase d = none := by simp [ownBase, hb, hc]
      apply key
      · intro x; simp [references, hb, hpar]
      · intro a; rw [hown]; exact hnone _ _ a
      · intro a; rw [StdMap.find_set, hpar]
        split <;> simp
    · rename_i hc
      have hpar : parent d = none := by
        simp only [parent, hb, true_and]; rw [if_neg hc]
      split
      · rename_i hc2
        have hown : ownBase d = some .implicitObject := by simp [ownBase, hb, hc2]
        apply key
        · intro x; simp [references, hb, hpar]
        · intro a; rw [StdMap.find_set, hown]
          split <;> simp
        · intro a; rw [hpar]; exact hnone _ _ a
      · rename_i hc2
        have hown : ownBase d = none := by simp only [ownBase, hb]; rw [if_neg hc2]
        apply key
        · intro x; simp [references, hb, hpar]
        · intro a; rw [hown]; exact hnone _ _ a
        · intro a; rw [hpar]; exact hnone _ _ a

theorem fill_all (ds : List Decl) (hne : ∀ d ∈ ds, d.identifier ≠ []) (hnd : (ds.map (·.identifier)).Nodup) :
    Filled (ds.foldl fill ⟨[], [], [], none⟩) ds := by
  have gen : ∀ (es pre : List Decl) (s : Tables), Filled s pre → (∀ d ∈ es, d.identifier ≠ []) →
      ((pre ++ es).map (·.identifier)).Nodup → Filled (es.foldl fill s) (pre ++ es) := by
    intro es
    induction es with
    | nil => intro pre s h _ _; simpa using h
    | cons d es ih =>
      intro pre s h hne hnd
      have hnew : ∀ d' ∈ pre, d'.identifier ≠ d.identifier := by
        intro d' hd' he
        rw [List.map_append, List.nodup_append] at hnd
        exact hnd.2.2 _ (List.mem_map_of_mem hd') d.identifier (by simp) he
      have := ih (pre ++ [d]) (fill s d) (fill_filled s pre d h (hne d (by simp)) hnew) (fun x hx => hne x (by simp [hx]))
        (by simpa using hnd)
      simpa using this
  have h0 : Filled ⟨[], [], [], none⟩ [] := by
    refine ⟨rfl, ?_, ?_, ?_, ?_, ?_⟩ <;> simp [StdMap.keys, DepTable.get, StdMap.find, Refers]
  simpa using gen ds [] _ h0 hne (by simpa using hnd)

/-- Errors are kept. -/
theorem fill_error (ds : List Decl) : ∀ s : Tables, s.error.isSome → (ds.foldl fill s).error.isSome := by
  induction ds with
  | nil => intro s h; exact h
  | cons d ds ih =>
    intro s h
    apply ih
    unfold fill
    simp only
    split
    · rfl
    · repeat' split
      all_goals exact h

/-! ## Base types -/

/-- The declared inheritance, base types and dependencies as a relation: all that `resolveBase` looks at. -/
structure Ctx (dep : DepTable) (inh : StdMap Bytes) (ds : List Decl) : Prop where
  inh : ∀ a p, StdMap.find inh a = some p ↔ ∃ d ∈ ds, d.identifier = a ∧ parent d = some p
  dep : ∀ a, a ≠ [] → ∀ b, b ∈ dep.get a ↔ Reaches (Refers ds) a b
  ne : ∀ d ∈ ds, d.identifier ≠ []
  uniq : ∀ d ∈ ds, ∀ d' ∈ ds, d.identifier = d'.identifier → d = d'

/-- A base table that is right so far: own base types are in, and whatever is in is a base type by inheritance. -/
structure BaseOk (base : StdMap BaseType) (ds : List Decl) : Prop where
  own : ∀ d ∈ ds, ∀ b, ownBase d = some b → StdMap.find base d.identifier = some b
  sound : ∀ a b, StdMap.find base a = some b → HasBase ds a b
  checked : ∀ d ∈ ds, (StdMap.find base d.identifier).isSome → (parent d).isSome → ¬ Reaches (Refers ds) d.identifier d.identifier

theorem parent_refers {ds : List Decl} {d : Decl} (h : d ∈ ds) {p : Bytes} (hp : parent d = some p) : Refers ds d.identifier p := by
  refine ⟨d, h, rfl, ?_⟩
  have hb : d.type.base = none := by
    simp only [parent] at hp; split at hp
    · rename_i h; exact h.1
    · simp at hp
  simp [references, hb, hp]

theorem parent_own {d : Decl} {p : Bytes} (hp : parent d = some p) : ownBase d = none ∧ p ≠ [] := by
  simp only [parent] at hp
  split at hp
  · rename_i h; simp at hp; subst hp; exact ⟨by simp [ownBase, h], h.2.1⟩
  · simp at hp

/-- Why an inheriting type is refused. -/
def Bad (ds : List Decl) (d : Decl) : Prop := Reaches (Refers ds) d.identifier d.identifier ∨ ¬ ∃ b, HasBase ds d.identifier b

theorem hasBase_inv {ds : List Decl} (hu : ∀ d ∈ ds, ∀ d' ∈ ds, d.identifier = d'.identifier → d = d') {d : Decl} (hd : d ∈ ds)
    {b : BaseType} (h : HasBase ds d.identifier b) : ownBase d = some b ∨ ∃ p, parent d = some p ∧ HasBase ds p b := by
  generalize ha : d.identifier = a at h
  cases h with
  | own d' hd' b hb => rw [hu d hd d' hd' ha]; exact .inl hb
  | inherited d' hd' p hp b hb => rw [hu d hd d' hd' ha]; exact .inr ⟨p, hp, hb⟩

theorem hasBase_unique {ds : List Decl} (hu : ∀ d ∈ ds, ∀ d' ∈ ds, d.identifier = d'.identifier → d = d') {a : Bytes} {b c : BaseType}
    (h : HasBase ds a b) (h' : HasBase ds a c) : b = c := by
  induction h with
  | own d hd b hb =>
    rcases hasBase_inv hu hd h' with h | ⟨p, hp, _⟩
    · rw [hb] at h; exact Option.some.inj h
    · rw [(parent_own hp).1] at hb; simp at hb
  | inherited d hd p hp b hb ih =>
    rcases hasBase_inv hu hd h' with h | ⟨p', hp', h⟩
    · rw [(parent_own hp).1] at h; simp at h
    · rw [hp] at hp'; cases hp'; exact ih h

/-- The names that a set of references can reach, finitely many. -/
def measure (dep : DepTable) (a : Bytes) : Nat := (dep.get a).toFinset.card

theorem resolveBase_spec (dep : DepTable) (inh : StdMap Bytes) (ds : List Decl) (hc : Ctx dep inh ds) (n : Nat) :
    ∀ (d : Decl) (p : Bytes) (base : StdMap BaseType), d ∈ ds → parent d = some p → BaseOk base ds → measure dep d.identifier ≤ n →
      (∃ base', resolveBase dep inh d.identifier p base = some (.ok base') ∧ BaseOk base' ds ∧ (StdMap.find base' d.identifier).isSome ∧
        ¬ Bad ds d ∧ ∀ a, (StdMap.find base a).isSome → (StdMap.find base' a).isSome) ∨
      (∃ e d', resolveBase dep inh d.identifier p base = some (.error e) ∧ d' ∈ ds ∧ (parent d').isSome ∧ Bad ds d' ∧ Blames ds d' e) := by
  induction n with
  | zero =>
    intro d p base hd hp hok hm
    -- an inheriting type has a dependency, so this cannot be
    exfalso
    have hmem : p ∈ dep.get d.identifier := (hc.dep _ (hc.ne d hd) p).2 (.single (parent_refers hd hp))
    have : (dep.get d.identifier).toFinset = ∅ := Finset.card_eq_zero.1 (by simpa [measure] using hm)
    have hx : p ∈ (dep.get d.identifier).toFinset := by simpa using hmem
    rw [this] at hx; simp at hx
  | succ n ih =>
    intro d p base hd hp hok hm
    have hedge := parent_refers hd hp
    rw [resolveBase]
    by_cases h1 : (StdMap.find base d.identifier).isSome
    · rw [if_pos h1]
      left
      obtain ⟨b, hb⟩ := Option.isSome_iff_exists.1 h1
      refine ⟨base, rfl, hok, h1, ?_, fun _ h => h⟩
      rintro (h | h)
      · exact hok.checked d hd h1 (by simp [hp]) h
      · exact h ⟨b, hok.sound _ _ hb⟩
    rw [if_neg h1]
    by_cases h2 : ((dep.get d.identifier).contains d.identifier) = true
    · rw [if_pos h2]
      right
      rw [List.contains_iff_mem, hc.dep _ (hc.ne d hd)] at h2
      exact ⟨_, d, rfl, hd, by simp [hp], .inl h2, .circular h2⟩
    rw [if_neg h2]
    have hnc : ¬ Reaches (Refers ds) d.identifier d.identifier := by
      rw [List.contains_iff_mem, hc.dep _ (hc.ne d hd)] at h2; exact h2
    -- adding the base type of the parent keeps the table right
    have setOk : ∀ (base' : StdMap BaseType) (b : BaseType), BaseOk base' ds → StdMap.find base' p = some b →
        BaseOk (StdMap.set base' d.identifier b) ds := by
      intro base' b hok' hb
      refine ⟨?_, ?_, ?_⟩
      · intro d' hd' b' hb'
        rw [StdMap.find_set]
        split
        · rename_i he
          have := hc.uniq d' hd' d hd he
          subst this
          rw [(parent_own hp).1] at hb'; simp at hb'
        · exact hok'.own d' hd' b' hb'
      · intro a b' hab
        rw [StdMap.find_set] at hab
        split at hab
        · rename_i he; subst he; simp at hab; subst hab
          exact .inherited d hd p hp _ (hok'.sound _ _ hb)
        · exact hok'.sound _ _ hab
      · intro d' hd' hs hpar
        rw [StdMap.find_set] at hs
        split at hs
        · rename_i he; rw [he]; exact hnc
        · exact hok'.checked d' hd' hs hpar
    cases hbp : StdMap.find base p with
    | some b =>
      simp only
      left
      refine ⟨_, rfl, setOk base b hok hbp, by rw [StdMap.find_set, if_pos rfl]; rfl, ?_, ?_⟩
      · rintro (h | h)
        · exact hnc h
        · exact h ⟨b, .inherited d hd p hp _ (hok.sound _ _ hbp)⟩
      · intro a ha; rw [StdMap.find_set]; split <;> simp_all
    | none =>
      simp only
      cases hip : StdMap.find inh p with
      | none =>
        simp only
        right
        refine ⟨_, d, rfl, hd, by simp [hp], .inr ?_, .undefined hp ?_⟩
        rotate_left
        · intro d' hd' he
          constructor
          · cases hq : parent d' with
            | none => rfl
            | some q =>
              have := (hc.inh p q).2 ⟨d', hd', he, hq⟩
              rw [hip] at this; cases this
          · cases hb : ownBase d' with
            | none => rfl
            | some b =>
              have := hok.own d' hd' b hb
              rw [he, hbp] at this; cases this
        rintro ⟨b, hb⟩
        rcases hasBase_inv hc.uniq hd hb with h | ⟨p', hp', h⟩
        · rw [(parent_own hp).1] at h; simp at h
        · rw [hp] at hp'; cases hp'
          cases h with
          | own d' hd' b hb' => rw [hok.own d' hd' b hb'] at hbp; simp at hbp
          | inherited d' hd' q hq b hb' =>
            have := (hc.inh d'.identifier q).2 ⟨d', hd', rfl, hq⟩
            rw [hip] at this; simp at this
      | some q =>
        simp only
        obtain ⟨d', hd', he, hq⟩ := (hc.inh p q).1 hip
        by_cases hcyc : Reaches (Refers ds) d'.identifier d'.identifier
        · have hr : resolveBase dep inh d'.identifier q base = some (.error (.circular d'.identifier)) := by
            rw [resolveBase, if_neg (by rw [he, hbp]; simp), if_pos]
            rw [List.contains_iff_mem, hc.dep _ (hc.ne d' hd')]; exact hcyc
          rw [← he, hr]
          right
          exact ⟨_, d', rfl, hd', by simp [hq], .inl hcyc, .circular hcyc⟩
        have hlt : measure dep d'.identifier ≤ n := by
          have hsub : (dep.get d'.identifier).toFinset ⊆ (dep.get d.identifier).toFinset := by
            intro x hx
            rw [List.mem_toFinset, hc.dep _ (hc.ne d' hd')] at hx
            rw [List.mem_toFinset, hc.dep _ (hc.ne d hd)]
            rw [he] at hx
            exact .head hedge hx
          have hss : (dep.get d'.identifier).toFinset ⊂ (dep.get d.identifier).toFinset := by
            rw [Finset.ssubset_iff_of_subset hsub]
            refine ⟨p, ?_, ?_⟩
            · rw [List.mem_toFinset, hc.dep _ (hc.ne d hd)]; exact .single hedge
            · rw [List.mem_toFinset, hc.dep _ (hc.ne d' hd'), ← he]; exact hcyc
          have := Finset.card_lt_card hss
          simp only [measure] at hm ⊢
          omega
        rw [← he]
        rcases ih d' q base hd' hq hok hlt with ⟨base', hr, hok', hs, hnb, hmono⟩ | ⟨e, d'', hr, hd'', hpar, hbad⟩
        · rw [hr]
          obtain ⟨b, hb⟩ := Option.isSome_iff_exists.1 hs
          left
          refine ⟨StdMap.set base' d.identifier b, ?_, setOk base' b hok' (he ▸ hb), by rw [StdMap.find_set, if_pos rfl]; rfl, ?_, ?_⟩
          · show (match StdMap.find base' d'.identifier with | some b => some (Except.ok (StdMap.set base' d.identifier b)) | none => none) = _
            rw [hb]
          · rintro (h | h)
            · exact hnc h
            · exact h ⟨b, .inherited d hd p hp _ (hok'.sound _ _ (he ▸ hb))⟩
          · intro a ha
            have := hmono a ha
            rw [StdMap.find_set]; split <;> simp_all
        · rw [hr]
          right
          exact ⟨e, d'', rfl, hd'', hpar, hbad⟩

theorem mem_set {V : Type} (m : StdMap V) (k : Bytes) (v : V) (q : Bytes × V) (h : q ∈ StdMap.set m k v) : q = (k, v) ∨ q ∈ m := by
  induction m with
  | nil => simp only [StdMap.set, List.mem_singleton] at h; exact .inl h
  | cons p r ih =>
    obtain ⟨k', v'⟩ := p
    simp only [StdMap.set] at h
    split at h
    · rcases List.mem_cons.1 h with h | h
      · exact .inl h
      · exact .inr (List.mem_cons_of_mem _ h)
    · split at h
      · rcases List.mem_cons.1 h with h | h
        · exact .inl h
        · exact .inr h
      · rcases List.mem_cons.1 h with h | h
        · exact .inr (by rw [h]; simp)
        · rcases ih h with h | h
          · exact .inl h
          · exact .inr (List.mem_cons_of_mem _ h)

theorem find_mem {V : Type} (m : StdMap V) (k : Bytes) (v : V) (h : StdMap.find m k = some v) : (k, v) ∈ m := by
  induction m with
  | nil => simp [StdMap.find] at h
  | cons p r ih =>
    obtain ⟨k', v'⟩ := p
    simp only [StdMap.find] at h
    split at h
    · rename_i he; simp at h; subst he; subst h; simp
    · exact List.mem_cons_of_mem _ (ih h)

theorem fill_inh_mem (ds : List Decl) : ∀ (pre : List Decl) (s : Tables), (∀ q ∈ s.inh, ∃ d ∈ pre, d.identifier = q.1 ∧ parent d = some q.2) →
    ∀ q ∈ (ds.foldl fill s).inh, ∃ d ∈ pre ++ ds, d.identifier = q.1 ∧ parent d = some q.2 := by
  induction ds with
  | nil => intro pre s h; simpa using h
  | cons d ds ih =>
    intro pre s h
    have hstep : ∀ q ∈ (fill s d).inh, ∃ d' ∈ pre ++ [d], d'.identifier = q.1 ∧ parent d' = some q.2 := by
      intro q hq
      have keep : q ∈ s.inh → ∃ d' ∈ pre ++ [d], d'.identifier = q.1 ∧ parent d' = some q.2 := by
        intro hq; obtain ⟨d', hd', h'⟩ := h q hq; exact ⟨d', by simp [hd'], h'⟩
      unfold fill at hq
      simp only at hq
      split at hq
      · exact keep hq
      · split at hq
        · exact keep hq
        · rename_i hb
          split at hq
          · rename_i hc
            rcases mem_set _ _ _ _ hq with rfl | hq
            · exact ⟨d, by simp, rfl, by simp [parent, hb, hc]⟩
            · exact keep hq
          · split at hq <;> exact keep hq
    have := ih (pre ++ [d]) (fill s d) hstep
    simpa using this

theorem resolveBases_spec (dep : DepTable) (inh : StdMap Bytes) (ds : List Decl) (hc : Ctx dep inh ds) (l : List (Bytes × Bytes)) :
    ∀ (base : StdMap BaseType), BaseOk base ds → (∀ q ∈ l, ∃ d ∈ ds, d.identifier = q.1 ∧ parent d = some q.2) →
      (∃ base', resolveBases dep inh l base = some (.ok base') ∧ BaseOk base' ds ∧
        (∀ d ∈ ds, (∃ p, (d.identifier, p) ∈ l) → (StdMap.find base' d.identifier).isSome ∧ ¬ Bad ds d) ∧
        (∀ a, (StdMap.find base a).isSome → (StdMap.find base' a).isSome)) ∨
      (∃ e d', resolveBases dep inh l base = some (.error e) ∧ d' ∈ ds ∧ (parent d').isSome ∧ Bad ds d' ∧ Blames ds d' e) := by
  induction l with
  | nil => intro base hok _; exact .inl ⟨base, rfl, hok, by simp, fun _ h => h⟩
  | cons q l ih =>
    intro base hok hl
    obtain ⟨k, p⟩ := q
    obtain ⟨d, hd, he, hp⟩ := hl (k, p) (by simp)
    simp only at he hp
    rcases resolveBase_spec dep inh ds hc _ d p base hd hp hok le_rfl with ⟨b1, hr, hok1, hs1, hnb, hm1⟩ | ⟨e, d', hr, h1, h2, h3⟩
    · rcases ih b1 hok1 (fun q hq => hl q (by simp [hq])) with ⟨b2, hr2, hok2, hs2, hm2⟩ | ⟨e, d', hr2, h1, h2, h3⟩
      · left
        refine ⟨b2, ?_, hok2, ?_, fun a ha => hm2 a (hm1 a ha)⟩
        · simp only [resolveBases]; rw [← he, hr]; exact hr2
        · rintro d' hd' ⟨p', hp'⟩
          rcases List.mem_cons.1 hp' with h | h
          · simp only [Prod.mk.injEq] at h
            have := hc.uniq d' hd' d hd (h.1.trans he.symm)
            subst this
            exact ⟨hm2 _ hs1, hnb⟩
          · exact hs2 d' hd' ⟨p', h⟩
      · right
        refine ⟨e, d', ?_, h1, h2, h3⟩
        simp only [resolveBases]; rw [← he, hr]; exact hr2
    · right
      refine ⟨e, d', ?_, h1, h2, h3⟩
      simp only [resolveBases]; rw [← he, hr]; rfl

end Verif.NamedTypes
