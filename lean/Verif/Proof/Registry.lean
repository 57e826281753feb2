import Verif.Spec.Registry
import Verif.Proof.NamedTypes
import Mathlib.Order.WellFounded
import Mathlib.Data.Fintype.Card
import Mathlib.Data.Fintype.EquivFin
namespace Verif.Registry
open Verif Verif.Spec Verif.Refract Verif.NamedTypes

theorem isReserved_iff (w : Bytes) : isReserved w = true ↔ reserved w := by
  simp only [isReserved, reservedNames, reserved, List.contains_iff_mem]
  rfl

theorem elementId_eq (e : Elem) : elementId e = idOf e := by
  unfold elementId idOf
  cases Infos.find e.metas (str "id") with
  | none => rfl
  | some i => obtain ⟨n, m, a, h, d⟩ := i; cases d <;> rfl

/-! ## Acyclic relations on finitely many names -/

theorem acyclic_wf (R : Bytes → Bytes → Prop) (ks : List Bytes) (hks : ∀ a b, R a b → a ∈ ks) (hac : Acyclic R) :
    WellFounded (fun b a => R a b) := by
  let S : {a // a ∈ ks} → {a // a ∈ ks} → Prop := fun b a => Reaches R a.1 b.1
  have hfin : Finite {a // a ∈ ks} := by
    exact Finite.of_injective (fun x : {a // a ∈ ks} => (⟨ks.idxOf x.1, List.idxOf_lt_length_iff.2 x.2⟩ : Fin ks.length)) (by
      intro x y h
      simp only [Fin.mk.injEq] at h
      exact Subtype.ext ((List.idxOf_inj x.2).1 h))
  have : Std.Irrefl S := ⟨fun a h => hac a.1 h⟩
  have : IsTrans _ S := ⟨fun a b c h1 h2 => h2.trans h1⟩
  have hwf : WellFounded S := Finite.wellFounded_of_trans_of_irrefl S
  constructor
  intro a
  by_cases ha : a ∈ ks
  · have : ∀ x : {a // a ∈ ks}, Acc (fun b a => R a b) x.1 := by
      intro x
      induction x using hwf.induction with
      | _ x ih =>
        constructor
        intro y hy
        by_cases hyk : y ∈ ks
        · exact ih ⟨y, hyk⟩ (.single hy)
        · constructor
          intro z hz
          exact absurd (hks y z hz) hyk
    exact this ⟨a, ha⟩
  · constructor
    intro z hz
    exact absurd (hks a z hz) ha

/-! ## Root ancestors -/

theorem rootFrom_spec (r : Reg) (k : Bytes) (hacc : Acc (fun b a => ParentStep r a b) k) :
    ∃ res, rootFrom r k = some res ∧ (res = none ↔ StdMap.find r k = none) ∧ ∀ p, res = some p → RootOf r k p := by
  induction hacc with
  | intro k _ ih =>
    rw [rootFrom]
    cases hf : StdMap.find r k with
    | none => exact ⟨none, rfl, by simp, by simp⟩
    | some p =>
      simp only
      by_cases hr : isReserved p.name = true
      · rw [if_pos hr]; exact ⟨_, rfl, by simp, fun q hq => by cases hq; exact .here k p hf (.inl ((isReserved_iff _).1 hr))⟩
      · rw [if_neg hr]
        cases hn : StdMap.find r p.name with
        | none => exact ⟨_, rfl, by simp, fun q hq => by cases hq; exact .here k p hf (.inr (.inl hn))⟩
        | some q =>
          simp only
          by_cases he : p.name = k
          · rw [if_pos he]; exact ⟨_, rfl, by simp, fun q hq => by cases hq; exact .here k p hf (.inr (.inr he))⟩
          · rw [if_neg he]
            have hstep : ParentStep r k p.name := ⟨he, fun h => hr ((isReserved_iff _).2 h), by simp [hn], p, hf, rfl⟩
            obtain ⟨res, h1, h2, h3⟩ := ih p.name hstep
            refine ⟨res, h1, ?_, fun q hq => .up k p.name q hstep (h3 q hq)⟩
            rw [h2, hn]; simp

theorem rootFrom_cycle (r : Reg) (k : Bytes) (h : Reaches (ParentStep r) k k) : rootFrom r k = none := by
  cases hres : rootFrom r k with
  | none => rfl
  | some res =>
    exfalso
    revert h
    -- every key from which the loop ends is not on a cycle
    have key : ∀ k res, rootFrom r k = some res → ¬ Reaches (ParentStep r) k k := by
      intro k res hres
      refine rootFrom.partial_correctness r (motive := fun k _ => ¬ Reaches (ParentStep r) k k) ?_ k res hres
      intro f ih k res hbody hcyc
      -- the first step of the cycle is the step of the loop
      obtain ⟨k', hstep, hback⟩ := Relation.TransGen.head'_iff.1 hcyc
      obtain ⟨hne, hnr, hreg, p, hp, hpn⟩ := hstep
      subst hpn
      simp only [hp] at hbody
      rw [if_neg (by rw [isReserved_iff]; exact hnr)] at hbody
      obtain ⟨q, hq⟩ := Option.isSome_iff_exists.1 hreg
      simp only [hq] at hbody
      rw [if_neg hne] at hbody
      apply ih _ _ hbody
      have hstep' : ParentStep r k p.name := ⟨hne, hnr, hreg, p, hp, rfl⟩
      exact Relation.TransGen.tail'_iff.2 ⟨k, hback, hstep'⟩
    exact key k res hres

/-! ## Tables of the constructor -/

theorem foldl_set_find {V : Type} (f : Named → Option V) (ts : List Named) : ∀ (m : StdMap V) (k : Bytes), (ts.map (·.name)).Nodup →
    StdMap.find (ts.foldl (fun m t => match f t with | some v => StdMap.set m t.name v | none => m) m) k =
      match ts.find? (fun t => t.name = k) with | some t => (f t).or (StdMap.find m k) | none => StdMap.find m k := by
  induction ts with
  | nil => intro m k _; rfl
  | cons t ts ih =>
    intro m k hnd
    rw [List.map_cons, List.nodup_cons] at hnd
    rw [List.foldl_cons, ih _ _ hnd.2, List.find?_cons]
    by_cases hk : t.name = k
    · have hno : ts.find? (fun t => t.name = k) = none := by
        rw [List.find?_eq_none]; intro x hx; simp; intro he
        exact hnd.1 (hk ▸ he ▸ List.mem_map_of_mem hx)
      simp only [hk, decide_true, hno]
      cases f t with
      | none => simp
      | some v => rw [StdMap.find_set]; simp [hk]
    · simp only [hk, decide_false]
      have : StdMap.find (match f t with | some v => StdMap.set m t.name v | none => m) k = StdMap.find m k := by
        cases f t with
        | none => rfl
        | some v => rw [StdMap.find_set, if_neg (fun h => hk h.symm)]
      rw [this]

theorem find_unique (ts : List Named) (hnd : (ts.map (·.name)).Nodup) (t : Named) (ht : t ∈ ts) : ts.find? (fun x => x.name = t.name) = some t := by
  cases h : ts.find? (fun x => x.name = t.name) with
  | none => rw [List.find?_eq_none] at h; have := h t ht; simp at this
  | some u =>
    have h1 := List.mem_of_find?_eq_some h
    have h2 : u.name = t.name := by have := List.find?_some h; simpa using this
    rw [List.inj_on_of_nodup_map hnd h1 ht h2]

theorem nameToElement_find (ts : List Named) (hnd : (ts.map (·.name)).Nodup) (k : Bytes) :
    StdMap.find (typeInfo ts).nameToElement k = ts.find? (fun t => t.name = k) := by
  have := foldl_set_find (fun t => some t) ts [] k hnd
  simp only at this
  simp only [typeInfo]
  rw [this]
  cases ts.find? (fun t => t.name = k) <;> rfl

theorem childToParent_find (ts : List Named) (hnd : (ts.map (·.name)).Nodup) (k p : Bytes) :
    StdMap.find (typeInfo ts).childToParent k = some p ↔ IsParent ts k p := by
  have hE : StdMap.find (typeInfo ts).childToParent k = _ :=
    Eq.trans (by
      simp only [typeInfo]
      congr 2
      funext m t
      by_cases h : t.parent = [] <;> simp [h]) (foldl_set_find (V := Bytes) (fun t => if t.parent ≠ [] then some t.parent else none) ts [] k hnd)
  rw [hE]
  constructor
  · intro h
    cases hf : ts.find? (fun t => t.name = k) with
    | none => rw [hf] at h; simp [StdMap.find] at h
    | some t =>
      rw [hf] at h
      simp only [StdMap.find, Option.or_none] at h
      split at h
      · rename_i hne
        simp at h; subst h
        exact ⟨t, List.mem_of_find?_eq_some hf, by have := List.find?_some hf; simpa using this, rfl, hne⟩
      · simp at h
  · rintro ⟨t, ht, rfl, rfl, hne⟩
    rw [find_unique ts hnd t ht]
    simp [hne]

theorem members_find (ts : List Named) (hnd : (ts.map (·.name)).Nodup) (k : Bytes) :
    StdMap.find (typeInfo ts).members k = (ts.find? (fun t => t.name = k)).map (·.members) := by
  have := foldl_set_find (fun t => some t.members) ts [] k hnd
  simp only at this
  simp only [typeInfo]
  rw [this]
  cases ts.find? (fun t => t.name = k) <;> rfl

/-! ## ResolveType -/

theorem resolveType_spec (ts : List Named) (hnd : (ts.map (·.name)).Nodup) (s : Bytes) (hacc : Acc (fun b a => IsParent ts a b ∧ b ≠ a) s) :
    s ≠ [] → ∃ res, resolveType (typeInfo ts) s = some res ∧ ∀ b, res = some b → BaseOf ts s b := by
  induction hacc with
  | intro s _ ih =>
    intro hs
    rw [resolveType, if_neg hs, nameToElement_find ts hnd]
    cases hf : ts.find? (fun t => t.name = s) with
    | none => exact ⟨none, rfl, by simp⟩
    | some t =>
      have ht := List.mem_of_find?_eq_some hf
      have hn : t.name = s := by have := List.find?_some hf; simpa using this
      simp only
      cases hb : t.base with
      | some b => exact ⟨_, rfl, fun b' h => by cases h; rw [← hn]; exact .here t ht b hb⟩
      | none =>
        simp only
        cases hp : StdMap.find (typeInfo ts).childToParent s with
        | none => exact ⟨none, rfl, by simp⟩
        | some p =>
          simp only
          have hpar := (childToParent_find ts hnd s p).1 hp
          by_cases he : s = p
          · rw [if_pos he]; exact ⟨none, rfl, by simp⟩
          · rw [if_neg he]
            obtain ⟨u, hu, hun, hup, hpne⟩ := hpar
            have hut : u = t := List.inj_on_of_nodup_map hnd hu ht (hun.trans hn.symm)
            subst hut
            obtain ⟨res, h1, h2⟩ := ih p ⟨⟨u, hu, hun, hup, hpne⟩, fun h => he h.symm⟩ hpne
            refine ⟨res, h1, fun b h => ?_⟩
            have := h2 b h
            rw [← hn]
            exact .up u hu hb (hup ▸ hpne) b (by rw [hup]; exact this)

/-- The chain of types without base type. -/
def Chain (ts : List Named) (a b : Bytes) : Prop := ∃ t ∈ ts, t.name = a ∧ t.parent = b ∧ t.base = none ∧ b ≠ [] ∧ b ≠ a

theorem resolveType_cycle (ts : List Named) (hnd : (ts.map (·.name)).Nodup) (s : Bytes) (hs : s ≠ []) (h : Reaches (Chain ts) s s) :
    resolveType (typeInfo ts) s = none := by
  cases hres : resolveType (typeInfo ts) s with
  | none => rfl
  | some res =>
    exfalso
    have key : ∀ s res, resolveType (typeInfo ts) s = some res → s ≠ [] → ¬ Reaches (Chain ts) s s := by
      intro s res hres
      refine resolveType.partial_correctness (typeInfo ts) (motive := fun s _ => s ≠ [] → ¬ Reaches (Chain ts) s s) ?_ s res hres
      intro f ih s res hbody hs hcyc
      obtain ⟨k', hstep, hback⟩ := Relation.TransGen.head'_iff.1 hcyc
      obtain ⟨t, ht, hn, hp, hb, hne, hne2⟩ := hstep
      rw [if_neg hs, nameToElement_find ts hnd, ← hn, find_unique ts hnd t ht] at hbody
      simp only [hb] at hbody
      rw [(childToParent_find ts hnd t.name k').2 ⟨t, ht, rfl, hp, hne⟩] at hbody
      simp only at hbody
      rw [if_neg (by rw [hn]; exact fun h => hne2 h.symm)] at hbody
      apply ih _ _ hbody hne
      exact Relation.TransGen.tail'_iff.2 ⟨s, hback, ⟨t, ht, hn, hp, hb, hne, hne2⟩⟩
    exact key s res hres hs h

/-! ## Members -/

/-- What a depth first search promises. -/
structure Dfs (m : StdMap Names) (start : List Bytes) (V C V' : Names) : Prop where
  mono : ∀ x ∈ V, x ∈ V'
  starts : ∀ x ∈ start, x ∈ V'
  reach : ∀ x ∈ V', x ∈ V ∨ ∃ s ∈ start, x = s ∨ Reaches (fun a b => b ∈ (StdMap.find m a).getD []) s x
  done : ∀ y ∈ V', y ∉ V → ∀ z ∈ (StdMap.find m y).getD [], z ∈ V' ∧ z ∈ C
  sound : ∀ x ∈ C, ∃ s ∈ start, Reaches (fun a b => b ∈ (StdMap.find m a).getD []) s x

theorem mem_insert' (s : Names) (a x : Bytes) : x ∈ s.insert a ↔ x = a ∨ x ∈ s := List.mem_insert_iff

/-- Termination and correctness of the search by the number of keys not yet visited. -/
theorem collect_spec (m : StdMap Names) (n : Nat) : ∀ (id : Bytes) (V : Names), ((StdMap.keys m).toFinset \ V.toFinset).card ≤ n →
    ∃ C V', collect m id V = some (C, V') ∧ Dfs m [id] V C V' := by
  induction n with
  | zero =>
    intro id V hn
    rw [collect]
    by_cases hv : V.contains id = true
    · rw [if_pos hv]
      have hv' : id ∈ V := by simpa using hv
      exact ⟨[], V, rfl, ⟨fun _ h => h, by simpa using hv', fun x h => .inl h, fun y hy hn => absurd hy hn, by simp⟩⟩
    · rw [if_neg hv]
      have hv' : id ∉ V := by simpa using hv
      cases hf : StdMap.find m id with
      | none =>
        refine ⟨[], V.insert id, rfl, ⟨fun x h => (mem_insert' _ _ _).2 (.inr h), by simp, ?_, ?_, by simp⟩⟩
        · intro x hx
          rcases (mem_insert' _ _ _).1 hx with rfl | h
          · exact .inr ⟨x, by simp, .inl rfl⟩
          · exact .inl h
        · intro y hy hny z hz
          rcases (mem_insert' _ _ _).1 hy with rfl | h
          · rw [hf] at hz; simp at hz
          · exact absurd h hny
      | some ms =>
        exfalso
        have : (StdMap.keys m).toFinset \ V.toFinset = ∅ := Finset.card_eq_zero.1 (by omega)
        have hx : id ∈ (StdMap.keys m).toFinset \ V.toFinset := by
          simp [hv', (StdMap.find_isSome m id).1 (by simp [hf])]
        rw [this] at hx; simp at hx
  | succ n ih =>
    intro id V hn
    rw [collect]
    by_cases hv : V.contains id = true
    · rw [if_pos hv]
      have hv' : id ∈ V := by simpa using hv
      exact ⟨[], V, rfl, ⟨fun _ h => h, by simpa using hv', fun x h => .inl h, fun y hy hn => absurd hy hn, by simp⟩⟩
    · rw [if_neg hv]
      have hv' : id ∉ V := by simpa using hv
      cases hf : StdMap.find m id with
      | none =>
        refine ⟨[], V.insert id, rfl, ⟨fun x h => (mem_insert' _ _ _).2 (.inr h), by simp, ?_, ?_, by simp⟩⟩
        · intro x hx
          rcases (mem_insert' _ _ _).1 hx with rfl | h
          · exact .inr ⟨x, by simp, .inl rfl⟩
          · exact .inl h
        · intro y hy hny z hz
          rcases (mem_insert' _ _ _).1 hy with rfl | h
          · rw [hf] at hz; simp at hz
          · exact absurd h hny
      | some ms =>
        simp only
        -- the loop over the direct members
        have loop : ∀ (l : List Bytes) (acc V1 : Names), ((StdMap.keys m).toFinset \ V1.toFinset).card ≤ n →
            ∃ C V2, collectAll m l acc V1 = some (C, V2) ∧ (∀ x ∈ V1, x ∈ V2) ∧ (∀ x ∈ l, x ∈ V2 ∧ x ∈ C) ∧ (∀ x ∈ acc, x ∈ C) ∧
              (∀ x ∈ V2, x ∈ V1 ∨ ∃ s ∈ l, x = s ∨ Reaches (fun a b => b ∈ (StdMap.find m a).getD []) s x) ∧
              (∀ y ∈ V2, y ∉ V1 → ∀ z ∈ (StdMap.find m y).getD [], z ∈ V2 ∧ z ∈ C) ∧
              (∀ x ∈ C, x ∈ acc ∨ x ∈ l ∨ ∃ s ∈ l, Reaches (fun a b => b ∈ (StdMap.find m a).getD []) s x) := by
          intro l
          induction l with
          | nil =>
            intro acc V1 _
            rw [collectAll]
            exact ⟨acc, V1, rfl, fun _ h => h, by simp, fun _ h => h, fun x h => .inl h, fun y hy hn => absurd hy hn, fun x h => .inl h⟩
          | cons a l ihl =>
            intro acc V1 hV1
            obtain ⟨C1, V2, hc, hd⟩ := ih a V1 hV1
            have hcard : ((StdMap.keys m).toFinset \ V2.toFinset).card ≤ n := by
              refine le_trans (Finset.card_le_card ?_) hV1
              intro x hx
              simp only [Finset.mem_sdiff, List.mem_toFinset] at hx ⊢
              exact ⟨hx.1, fun h => hx.2 (hd.mono x h)⟩
            obtain ⟨C, V3, hl, h1, h2, h3, h4, h5, h6⟩ := ihl (Names.addAll (acc.insert a) C1) V2 hcard
            refine ⟨C, V3, ?_, fun x hx => h1 x (hd.mono x hx), ?_, ?_, ?_, ?_, ?_⟩
            · rw [collectAll]; simp only [hc]; exact hl
            · intro x hx
              rcases List.mem_cons.1 hx with rfl | hx
              · exact ⟨h1 x (hd.starts x (by simp)), h3 x ((mem_addAll _ _ _).2 (.inl ((mem_insert' _ _ _).2 (.inl rfl))))⟩
              · exact h2 x hx
            · intro x hx; exact h3 x ((mem_addAll _ _ _).2 (.inl ((mem_insert' _ _ _).2 (.inr hx))))
            · intro x hx
              rcases h4 x hx with h | ⟨s, hs, h⟩
              · rcases hd.reach x h with h | ⟨s, hs, h⟩
                · exact .inl h
                · simp at hs; subst hs; exact .inr ⟨s, by simp, h⟩
              · exact .inr ⟨s, by simp [hs], h⟩
            · intro y hy hny z hz
              by_cases hyV2 : y ∈ V2
              · have := hd.done y hyV2 hny z hz
                exact ⟨h1 z this.1, h3 z ((mem_addAll _ _ _).2 (.inr this.2))⟩
              · exact h5 y hy hyV2 z hz
            · intro x hx
              rcases h6 x hx with h | h | ⟨s, hs, h⟩
              · rcases (mem_addAll _ _ _).1 h with h | h
                · rcases (mem_insert' _ _ _).1 h with rfl | h
                  · exact .inr (.inl (by simp))
                  · exact .inl h
                · obtain ⟨s', hs', hr'⟩ := hd.sound x h
                  rw [List.mem_singleton] at hs'
                  exact .inr (.inr ⟨a, by simp, hs' ▸ hr'⟩)
              · exact .inr (.inl (by simp [h]))
              · exact .inr (.inr ⟨s, by simp [hs], h⟩)
        have hcard : ((StdMap.keys m).toFinset \ (V.insert id).toFinset).card ≤ n := by
          have hss : (StdMap.keys m).toFinset \ (V.insert id).toFinset ⊂ (StdMap.keys m).toFinset \ V.toFinset := by
            rw [Finset.ssubset_iff_of_subset]
            · exact ⟨id, by simp [hv', (StdMap.find_isSome m id).1 (by simp [hf])], by simp⟩
            · intro y hy
              simp only [Finset.mem_sdiff, List.mem_toFinset, mem_insert', not_or] at hy ⊢
              exact ⟨hy.1, hy.2.2⟩
          have := Finset.card_lt_card hss
          omega
        obtain ⟨C, V2, hl, h1, h2, -, h4, h5, h6⟩ := loop ms [] (V.insert id) hcard
        have hedge : ∀ x ∈ ms, Reaches (fun a b => b ∈ (StdMap.find m a).getD []) id x := by
          intro x hx; exact .single (by rw [hf]; exact hx)
        refine ⟨C, V2, hl, ⟨?_, ?_, ?_, ?_, ?_⟩⟩
        · intro x hx; exact h1 x ((mem_insert' _ _ _).2 (.inr hx))
        · intro x hx; simp at hx; subst hx; exact h1 x ((mem_insert' _ _ _).2 (.inl rfl))
        · intro x hx
          rcases h4 x hx with h | ⟨s, hs, h⟩
          · rcases (mem_insert' _ _ _).1 h with rfl | h
            · exact .inr ⟨x, by simp, .inl rfl⟩
            · exact .inl h
          · refine .inr ⟨id, by simp, .inr ?_⟩
            rcases h with rfl | h
            · exact hedge x hs
            · exact (hedge s hs).trans h
        · intro y hy hny z hz
          by_cases hyi : y = id
          · subst hyi
            rw [hf] at hz
            exact h2 z hz
          · exact h5 y hy (fun h => by rcases (mem_insert' _ _ _).1 h with h | h; exacts [hyi h, hny h]) z hz
        · intro x hx
          refine ⟨id, by simp, ?_⟩
          rcases h6 x hx with h | h | ⟨s, hs, h⟩
          · simp at h
          · exact hedge x h
          · exact (hedge s hs).trans h

/-- The collected members are those that can be reached. -/
theorem collect_reach (m : StdMap Names) (id : Bytes) : ∃ C V, collect m id [] = some (C, V) ∧
    ∀ x, x ∈ C ↔ Reaches (fun a b => b ∈ (StdMap.find m a).getD []) id x := by
  obtain ⟨C, V, h, d⟩ := collect_spec m _ id [] le_rfl
  refine ⟨C, V, h, fun x => ⟨fun hx => ?_, fun hr => ?_⟩⟩
  · obtain ⟨s, hs, hr⟩ := d.sound x hx
    simp at hs; subst hs; exact hr
  · have : x ∈ V ∧ x ∈ C := by
      induction hr with
      | single h' => exact d.done id (d.starts id (by simp)) (by simp) _ h'
      | tail _ h' ih => exact d.done _ ih.1 (by simp) _ h'
    exact this.2

theorem hasMember_iff (ts : List Named) (hnd : (ts.map (·.name)).Nodup) (s : Named) (hs : s ∈ ts) (t : Named) :
    hasMember (typeInfo ts) s t = true ↔ Reaches (Mentions ts) s.name t.name := by
  obtain ⟨C, V, h1, h2⟩ := collect_reach (typeInfo ts).members s.name
  have hf := members_find ts hnd s.name
  rw [find_unique ts hnd s hs] at hf
  simp only [hasMember, hf, Option.map_some, Option.isSome_some, if_true, h1, List.contains_iff_mem, h2]
  have : (fun a b => b ∈ (StdMap.find (typeInfo ts).members a).getD []) = Mentions ts := by
    funext a b
    rw [members_find ts hnd]
    simp only [Mentions, eq_iff_iff]
    constructor
    · intro h
      cases hf : ts.find? (fun t => t.name = a) with
      | none => rw [hf] at h; simp at h
      | some u =>
        rw [hf] at h
        exact ⟨u, List.mem_of_find?_eq_some hf, by have := List.find?_some hf; simpa using this, h⟩
    · rintro ⟨u, hu, rfl, hb⟩
      rw [find_unique ts hnd u hu]; exact hb
  rw [this]

/-! ## Ancestors -/

/-- The ancestor loop ends always. -/
theorem ancestorLoop_spec (c : StdMap Bytes) (anc : Bytes) (n : Nat) : ∀ (cur : Bytes) (sym : List Bytes),
    ((StdMap.keys c).toFinset \ sym.toFinset).card ≤ n →
    (∃ b, ancestorLoop c anc cur sym = some b ∧
      (b = true → cur = anc ∨ Reaches (fun a b => StdMap.find c a = some b) cur anc)) := by
  induction n with
  | zero =>
    intro cur sym hn
    rw [ancestorLoop]
    by_cases hc : cur = anc
    · rw [if_pos hc]; exact ⟨true, rfl, fun _ => .inl hc⟩
    · rw [if_neg hc]
      cases hf : StdMap.find c cur with
      | none => exact ⟨false, rfl, by simp⟩
      | some next =>
        simp only
        by_cases hs : sym.contains cur = true
        · rw [if_pos hs]; exact ⟨false, rfl, by simp⟩
        · exfalso
          have : (StdMap.keys c).toFinset \ sym.toFinset = ∅ := Finset.card_eq_zero.1 (by omega)
          have hx : cur ∈ (StdMap.keys c).toFinset \ sym.toFinset := by
            simp at hs
            simp [hs, (StdMap.find_isSome c cur).1 (by simp [hf])]
          rw [this] at hx; simp at hx
  | succ n ih =>
    intro cur sym hn
    rw [ancestorLoop]
    by_cases hc : cur = anc
    · rw [if_pos hc]; exact ⟨true, rfl, fun _ => .inl hc⟩
    · rw [if_neg hc]
      cases hf : StdMap.find c cur with
      | none => exact ⟨false, rfl, by simp⟩
      | some next =>
        simp only
        by_cases hs : sym.contains cur = true
        · rw [if_pos hs]; exact ⟨false, rfl, by simp⟩
        · rw [if_neg hs]
          have hcard : ((StdMap.keys c).toFinset \ (sym ++ [cur]).toFinset).card ≤ n := by
            have hss : (StdMap.keys c).toFinset \ (sym ++ [cur]).toFinset ⊂ (StdMap.keys c).toFinset \ sym.toFinset := by
              rw [Finset.ssubset_iff_of_subset]
              · simp at hs
                exact ⟨cur, by simp [hs, (StdMap.find_isSome c cur).1 (by simp [hf])], by simp⟩
              · intro y hy
                simp only [Finset.mem_sdiff, List.mem_toFinset, List.mem_append, not_or] at hy ⊢
                exact ⟨hy.1, hy.2.1⟩
            have := Finset.card_lt_card hss
            omega
          obtain ⟨b, h1, h2⟩ := ih next (sym ++ [cur]) hcard
          refine ⟨b, h1, fun hb => .inr ?_⟩
          rcases h2 hb with rfl | h
          · exact .single hf
          · exact .head hf h

/-- It finds the ancestor unless the chain returns to a name already seen; if the remaining chain to the ancestor
    does not meet `symbols`, it is found. -/
theorem ancestorLoop_complete (c : StdMap Bytes) (anc : Bytes) (cur : Bytes)
    (h : Reaches (fun a b => StdMap.find c a = some b) cur anc) : ∀ (sym : List Bytes) (res : Bool), ancestorLoop c anc cur sym = some res →
    Acyclic (fun a b => StdMap.find c a = some b) → (∀ x ∈ sym, ¬ (x = cur)) → (∀ x ∈ sym, Reaches (fun a b => StdMap.find c a = some b) x cur) → res = true := by
  induction h using Relation.TransGen.head_induction_on with
  | single h' =>
    intro sym res hres hac hsym hreach
    rename_i a
    rw [ancestorLoop] at hres
    by_cases hc : a = anc
    · rw [if_pos hc] at hres; simpa using hres.symm
    · rw [if_neg hc, h'] at hres
      simp only at hres
      rw [if_neg (by simp; exact fun hx => hsym a hx rfl)] at hres
      rw [ancestorLoop, if_pos rfl] at hres
      simpa using hres.symm
  | head h' hr ih =>
    intro sym res hres hac hsym hreach
    rename_i a b
    rw [ancestorLoop] at hres
    by_cases hc : a = anc
    · rw [if_pos hc] at hres; simpa using hres.symm
    · rw [if_neg hc, h'] at hres
      simp only at hres
      rw [if_neg (by simp; exact fun hx => hsym a hx rfl)] at hres
      apply ih (sym ++ [a]) res hres
      · exact hac
      · intro x hx he
        subst he
        rcases List.mem_append.1 hx with hx | hx
        · exact hac x ((hreach x hx).tail h')
        · simp at hx; subst hx; exact hac x (.single h')
      · intro x hx
        rcases List.mem_append.1 hx with hx | hx
        · exact (hreach x hx).tail h'
        · simp at hx; subst hx; exact .single h'

theorem hasAncestor_iff (ts : List Named) (hnd : (ts.map (·.name)).Nodup) (hac : Acyclic (IsParent ts)) (s t : Named) :
    hasAncestor (typeInfo ts) s t = true ↔ s.name = t.name ∨ Reaches (IsParent ts) s.name t.name := by
  have hrel : (fun a b => StdMap.find (typeInfo ts).childToParent a = some b) = IsParent ts := by
    funext a b; exact propext (childToParent_find ts hnd a b)
  obtain ⟨b, h1, h2⟩ := ancestorLoop_spec (typeInfo ts).childToParent t.name _ s.name [] le_rfl
  rw [hrel] at h2
  simp only [hasAncestor, h1, Option.getD_some]
  refine ⟨h2, ?_⟩
  rintro (h | h)
  · rw [ancestorLoop, if_pos h] at h1; simpa using h1.symm
  · exact ancestorLoop_complete _ _ _ (by rw [hrel]; exact h) [] b h1 (by rw [hrel]; exact hac) (by simp) (by simp)

end Verif.Registry
