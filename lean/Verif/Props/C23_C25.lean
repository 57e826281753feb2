import Verif.Proof.Registry
import Verif.Props.C20_C22
/-!
# C23–C25: registration of named types
-/
namespace Verif.Props
open Verif Verif.Spec Verif.Refract Verif.NamedTypes Verif.Registry

/-! ## C23 -/

/-- C23: no type is registered before itself, for all types. -/
theorem C23_irreflexive (i : TypeInfo) (t : Named) : less i t t = false := by
  have : hasAncestor i t t = true := by simp [hasAncestor, ancestorLoop]
  simp [less, this]

theorem bytesLt_asymm : ∀ a b : Bytes, bytesLt a b = true → bytesLt b a = false
  | _, [], h => by simp [bytesLt] at h
  | [], _ :: _, _ => by simp [bytesLt]
  | x :: a, y :: b, h => by
    simp only [bytesLt, Bool.or_eq_true, decide_eq_true_eq, Bool.and_eq_true, beq_iff_eq] at h
    simp only [bytesLt, Bool.or_eq_false_iff, decide_eq_false_iff_not, Bool.and_eq_false_iff, beq_eq_false_iff_ne]
    rcases h with h | ⟨rfl, h⟩
    · exact ⟨by simp; exact UInt8.le_of_lt h, .inl (fun e => by subst e; simp at h)⟩
    · exact ⟨by simp, .inr (bytesLt_asymm a b h)⟩

/-- C23: the order is asymmetric, for all types and tables. -/
theorem C23_asymmetric (i : TypeInfo) (s t : Named) (h : less i s t = true) : less i t s = false := by
  unfold less at h ⊢
  split at h
  · simp at h
  · rename_i h1
    split at h
    · rename_i h2; rw [if_pos h2]
    · rename_i h2
      rw [if_neg h2, if_neg h1]
      exact bytesLt_asymm _ _ h

/-- C23: a type comes before each type that depends on it and on which it does not depend. -/
theorem C23_base_first (ts : List Named) (hnd : (ts.map (·.name)).Nodup) (hac : Acyclic (IsParent ts)) (s t : Named) (hs : s ∈ ts) (ht : t ∈ ts)
    (hdep : DependsOn ts s t) (hne : s ≠ t) (hback : ¬ DependsOn ts t s) : less (typeInfo ts) t s = true ∧ less (typeInfo ts) s t = false := by
  have h1 : (hasAncestor (typeInfo ts) s t || hasMember (typeInfo ts) s t) = true := by
    rw [Bool.or_eq_true, hasAncestor_iff ts hnd hac, hasMember_iff ts hnd s hs]
    rcases hdep with h | h
    · exact .inl (.inr h)
    · exact .inr h
  have h2 : ¬ (hasAncestor (typeInfo ts) t s || hasMember (typeInfo ts) t s) = true := by
    rw [Bool.or_eq_true, hasAncestor_iff ts hnd hac, hasMember_iff ts hnd t ht]
    rintro ((h | h) | h)
    · exact hne (List.inj_on_of_nodup_map hnd hs ht h.symm)
    · exact hback (.inl h)
    · exact hback (.inr h)
  constructor
  · simp only [less]; rw [if_neg h2, if_pos h1]
  · simp only [less]; rw [if_pos h1]

/-- C23, for the order that a sort has to establish: in every list in which no type is less than an earlier one, each
    type comes after the types it depends on.  Missing from the property: that a sort reaches such a list; it need not
    (`C23_not_a_weak_order_refuted`). -/
theorem C23_sorted_partial (ts : List Named) (hnd : (ts.map (·.name)).Nodup) (hac : Acyclic (IsParent ts))
    (hdep : ∀ s ∈ ts, ∀ t ∈ ts, DependsOn ts s t → ¬ DependsOn ts t s)
    (l : List Named) (hperm : l.Perm ts) (hsorted : l.Pairwise (fun a b => less (typeInfo ts) b a = false)) :
    l.Pairwise (fun a b => ¬ DependsOn ts a b) := by
  have hl : ∀ x ∈ l, x ∈ ts := fun x hx => hperm.mem_iff.1 hx
  have hnl : (l.map (·.name)).Nodup := ((hperm.map _).nodup_iff).2 hnd
  have hne : l.Pairwise (fun a b => a ≠ b) := by
    have h := List.pairwise_map.1 hnl
    exact h.imp (fun h e => h (by rw [e]))
  have := (hsorted.and hne)
  refine this.imp_of_mem ?_
  intro a b ha hb ⟨h1, h2⟩ hd
  have := (C23_base_first ts hnd hac a b (hl a ha) (hl b hb) hd h2 (hdep a (hl a ha) b (hl b hb) hd)).1
  rw [h1] at this; simp at this

/-- `A (C)`, `B`, `C`: three types, the first inheriting from the last. -/
def threeTypes : List Named :=
  [⟨str "A", str "C", none, []⟩, ⟨str "B", [], none, []⟩, ⟨str "C", [], none, []⟩]

/-- The hypotheses of the partial theorem are met by them except the last, the dependencies are as intended. -/
example : (threeTypes.map (·.name)).Nodup ∧ DependsOn threeTypes ⟨str "A", str "C", none, []⟩ ⟨str "C", [], none, []⟩ := by
  refine ⟨by decide, .inl (.single ⟨⟨str "A", str "C", none, []⟩, by decide, rfl, rfl, by decide⟩)⟩

theorem anc_none (c : StdMap Bytes) (a b : Bytes) (s : List Bytes) (hne : a ≠ b) (h : StdMap.find c a = none) : ancestorLoop c b a s = some false := by
  rw [ancestorLoop, if_neg hne, h]

theorem three_less : less (typeInfo threeTypes) ⟨str "A", str "C", none, []⟩ ⟨str "B", [], none, []⟩ = true ∧
    less (typeInfo threeTypes) ⟨str "B", [], none, []⟩ ⟨str "C", [], none, []⟩ = true ∧
    less (typeInfo threeTypes) ⟨str "C", [], none, []⟩ ⟨str "A", str "C", none, []⟩ = true := by
  have hnd : (threeTypes.map (·.name)).Nodup := by decide
  have hpar : ∀ a b, IsParent threeTypes a b ↔ a = str "A" ∧ b = str "C" := by
    intro a b
    simp only [IsParent, threeTypes, List.mem_cons, List.not_mem_nil, or_false]
    constructor
    · rintro ⟨t, rfl | rfl | rfl, h1, h2, h3⟩
      · exact ⟨h1.symm, h2.symm⟩
      · exact absurd h2.symm h3
      · exact absurd h2.symm h3
    · rintro ⟨rfl, rfl⟩
      exact ⟨⟨str "A", str "C", none, []⟩, .inl rfl, rfl, rfl, by decide⟩
  have hreach : ∀ a b, Reaches (IsParent threeTypes) a b → a = str "A" ∧ b = str "C" := by
    intro a b h
    induction h with
    | single h => exact (hpar _ _).1 h
    | tail _ h ih =>
      have := (hpar _ _).1 h
      rw [ih.2] at this
      exact absurd this.1 (by decide)
  have hac : Acyclic (IsParent threeTypes) := by
    intro a h
    have := hreach a a h
    rw [this.1] at this
    exact absurd this.2 (by decide)
  have hmen : ∀ a b, ¬ Reaches (Mentions threeTypes) a b := by
    intro a b h
    have h0 : ∀ a b, ¬ Mentions threeTypes a b := by
      rintro a b ⟨t, ht, -, hb⟩
      simp only [threeTypes, List.mem_cons, List.not_mem_nil, or_false] at ht
      rcases ht with rfl | rfl | rfl <;> simp at hb
    cases h with
    | single h => exact h0 _ _ h
    | tail _ h => exact h0 _ _ h
  have hmem : ∀ s ∈ threeTypes, ∀ t, hasMember (typeInfo threeTypes) s t = false := by
    intro s hs t
    cases h : hasMember (typeInfo threeTypes) s t with
    | false => rfl
    | true => exact absurd ((hasMember_iff threeTypes hnd s hs t).1 h) (hmen _ _)
  have hanc : ∀ s t : Named, hasAncestor (typeInfo threeTypes) s t = true ↔ s.name = t.name ∨ (s.name = str "A" ∧ t.name = str "C") := by
    intro s t
    rw [hasAncestor_iff threeTypes hnd hac]
    constructor
    · rintro (h | h)
      · exact .inl h
      · exact .inr (hreach _ _ h)
    · rintro (h | ⟨h, h'⟩)
      · exact .inl h
      · right; rw [h, h']; exact .single ((hpar _ _).2 ⟨rfl, rfl⟩)
  have hf : ∀ s t : Named, ¬ (s.name = t.name ∨ (s.name = str "A" ∧ t.name = str "C")) → hasAncestor (typeInfo threeTypes) s t = false := by
    intro s t h
    cases hh : hasAncestor (typeInfo threeTypes) s t with
    | false => rfl
    | true => exact absurd ((hanc s t).1 hh) h
  have ht : hasAncestor (typeInfo threeTypes) ⟨str "A", str "C", none, []⟩ ⟨str "C", [], none, []⟩ = true := (hanc _ _).2 (.inr ⟨rfl, rfl⟩)
  refine ⟨?_, ?_, ?_⟩
  · simp only [less, hmem ⟨str "A", str "C", none, []⟩ (by decide), hmem ⟨str "B", [], none, []⟩ (by decide)]
    rw [hf _ _ (by decide), hf _ _ (by decide)]; decide
  · simp only [less, hmem ⟨str "C", [], none, []⟩ (by decide), hmem ⟨str "B", [], none, []⟩ (by decide)]
    rw [hf _ _ (by decide), hf _ _ (by decide)]; decide
  · simp only [less, hmem ⟨str "C", [], none, []⟩ (by decide), hmem ⟨str "A", str "C", none, []⟩ (by decide), ht]
    rw [hf _ _ (by decide)]; decide

/-- C23 is false: the comparison is not transitive, and for the types `A (C)`, `B`, `C` no order at all is sorted. -/
theorem C23_not_a_weak_order_refuted :
    (∃ a b c : Named, less (typeInfo threeTypes) a b = true ∧ less (typeInfo threeTypes) b c = true ∧ less (typeInfo threeTypes) a c = false) ∧
    ∀ l : List Named, l.Perm threeTypes → ¬ l.Pairwise (fun a b => less (typeInfo threeTypes) b a = false) := by
  obtain ⟨h1, h2, h3⟩ := three_less
  refine ⟨⟨_, _, _, h1, h2, C23_asymmetric _ _ _ h3⟩, ?_⟩
  intro l hl hs
  match l, hl, hs with
  | [], hl, _ => exact absurd hl.length_eq (by decide)
  | [_], hl, _ => exact absurd hl.length_eq (by simp [threeTypes])
  | [_, _], hl, _ => exact absurd hl.length_eq (by simp [threeTypes])
  | _ :: _ :: _ :: _ :: _, hl, _ => exact absurd hl.length_eq (by simp [threeTypes])
  | [x, y, z], hl, hs =>
    -- the last in the order is less than one of the two before it
    have hz : z ∈ threeTypes := hl.mem_iff.1 (by simp)
    have hall : ∀ t ∈ threeTypes, t = x ∨ t = y ∨ t = z := by
      intro t ht; have := hl.mem_iff.2 ht; simpa using this
    simp only [List.pairwise_cons, List.mem_cons, List.not_mem_nil, or_false, forall_eq_or_imp, forall_eq] at hs
    obtain ⟨⟨-, hxz⟩, hyz, -⟩ := hs
    have key : ∀ t ∈ threeTypes, less (typeInfo threeTypes) z t = true → t ≠ z → False := by
      intro t ht hlt hne
      rcases hall t ht with rfl | rfl | h
      · rw [hxz] at hlt; simp at hlt
      · rw [hyz] at hlt; simp at hlt
      · exact hne h
    simp only [threeTypes, List.mem_cons, List.not_mem_nil, or_false] at hz
    rcases hz with rfl | rfl | rfl
    · exact key _ (by decide) h1 (by decide)
    · exact key _ (by decide) h2 (by decide)
    · exact key _ (by decide) h3 (by decide)

/-! ## C24 -/

/-- One operation of the code. -/
def regRun (r : Reg) : RegOp → Reg
  | .add e => match Reg.add r e with | some (_, r') => r' | none => r
  | .remove n => (Reg.remove r n).2
  | .clear => []

/-- C24: after any sequence of operations on any registry, each lookup is that of the finite map. -/
theorem C24_finite_map (ops : List RegOp) (r : Reg) (k : Bytes) :
    StdMap.find (ops.foldl regRun r) k = (ops.foldl regApply (StdMap.find r)) k := by
  induction ops generalizing r with
  | nil => rfl
  | cons o ops ih =>
    rw [List.foldl_cons, List.foldl_cons, ih]
    suffices hE : StdMap.find (regRun r o) = regApply (StdMap.find r) o by rw [hE]
    funext k
    cases o with
    | clear => rfl
    | remove n =>
      simp only [regRun, Reg.remove, regApply]
      cases h : StdMap.find r n with
      | none => simp only; split
                · rename_i h2; rw [h2, h]
                · rfl
      | some v => simp only [StdMap.find_erase]
    | add e =>
      simp only [regRun, Reg.add, regApply, elementId_eq]
      cases hid : idOf e with
      | none => rfl
      | some id =>
        simp only
        by_cases hr : reserved id
        · rw [if_pos ((isReserved_iff _).2 hr)]; simp [hr]
        · rw [if_neg (by rw [isReserved_iff]; exact hr)]
          cases h : StdMap.find r id with
          | some v => simp
          | none => simp only [StdMap.find_set]; by_cases hk : k = id <;> simp [hr, hk]

/-- C24: reserved names and nameless elements are always refused, whatever the registry holds; any other element is
    accepted iff its name is free. -/
theorem C24_refused (r : Reg) (e : Elem) :
    (Reg.add r e = none ↔ idOf e = none ∨ ∃ id, idOf e = some id ∧ reserved id) ∧
    (∀ b r', Reg.add r e = some (b, r') → ∃ id, idOf e = some id ∧ (b = true ↔ StdMap.find r id = none)) := by
  simp only [Reg.add, elementId_eq]
  cases hid : idOf e with
  | none => simp
  | some id =>
    simp only
    by_cases hr : reserved id
    · rw [if_pos ((isReserved_iff _).2 hr)]; simp [hr]
    · rw [if_neg (by rw [isReserved_iff]; exact hr)]
      cases h : StdMap.find r id <;> simp [hr, h] 

/-- C24: `remove` says whether there was an entry. -/
theorem C24_remove (r : Reg) (n : Bytes) : (Reg.remove r n).1 = (StdMap.find r n).isSome := by
  unfold Reg.remove; cases StdMap.find r n <;> rfl

/-- C24: from the initial registry, in every history without `clear` and without removing that name, the built-in
    types are found unchanged.  Missing: nothing protects them from `remove` and `clear`. -/
theorem C24_builtins_partial (ops : List RegOp) (k : Bytes) (v : Elem) (hk : (k, v) ∈ baseTypes)
    (hno : ∀ o ∈ ops, o ≠ .clear ∧ o ≠ .remove k) : StdMap.find (ops.foldl regRun baseTypes) k = some v := by
  rw [C24_finite_map]
  have h0 : StdMap.find baseTypes k = some v := by
    simp only [baseTypes, List.mem_cons, List.not_mem_nil, or_false, Prod.mk.injEq] at hk
    rcases hk with ⟨rfl, rfl⟩ | ⟨rfl, rfl⟩ | ⟨rfl, rfl⟩ | ⟨rfl, rfl⟩ | ⟨rfl, rfl⟩ | ⟨rfl, rfl⟩ | ⟨rfl, rfl⟩ <;> rfl
  generalize StdMap.find baseTypes = m at h0
  induction ops generalizing m with
  | nil => exact h0
  | cons o ops ih =>
    rw [List.foldl_cons]
    refine ih (fun o ho => hno o (by simp [ho])) _ ?_
    have := hno o (by simp)
    cases o with
    | clear => exact absurd rfl this.1
    | remove n => simp only [regApply]; rw [if_neg]; exacts [h0, fun e => this.2 (by rw [e])]
    | add e =>
      simp only [regApply]
      cases idOf e with
      | none => exact h0
      | some id =>
        simp only
        rw [if_neg]
        · exact h0
        · rintro ⟨-, h2, rfl⟩; rw [h0] at h2; simp at h2

/-- C24 is false where it says always: the built-in types can be removed. -/
theorem C24_builtins_refuted : StdMap.find (regRun baseTypes (.remove (str "object"))) (str "object") = none ∧
    StdMap.find baseTypes (str "object") ≠ none := by
  constructor
  · rw [show regRun baseTypes (.remove (str "object")) = (Reg.remove baseTypes (str "object")).2 from rfl]
    simp only [Reg.remove]
    rw [show StdMap.find baseTypes (str "object") = some (makeEmpty .object) from rfl]
    simp only [StdMap.find_erase]; rfl
  · rw [show StdMap.find baseTypes (str "object") = some (makeEmpty .object) from rfl]; simp

/-- An accepted and a refused element. -/
example : let e : Elem := .mk (str "object") [(str "id", .mk (str "string") [] [] true (.string (str "A")))] [] false .null
    let f : Elem := .mk (str "object") [(str "id", .mk (str "string") [] [] true (.string (str "enum")))] [] false .null
    (∃ r, Reg.add baseTypes e = some (true, r)) ∧ Reg.add baseTypes f = none := by
  exact ⟨⟨_, rfl⟩, rfl⟩

/-! ## C25 -/

/-- C25: if no chain of parents returns to its start, the lookup ends for every name, with the element at the end of
    the chain, or nothing if the name is not registered.  Missing: cyclic registries, for which it does not end
    (`C25_cyclic_refuted`). -/
theorem C25_root_partial (r : Reg) (hac : Acyclic (ParentStep r)) (k : Bytes) :
    ∃ res, rootFrom r k = some res ∧ (res = none ↔ StdMap.find r k = none) ∧ ∀ p, res = some p → RootOf r k p := by
  refine rootFrom_spec r k ((acyclic_wf (ParentStep r) (StdMap.keys r) ?_ hac).apply k)
  rintro a b ⟨-, -, -, p, hp, -⟩
  exact (StdMap.find_isSome r a).1 (by simp [hp])

/-- C25: the element at the end of the chain is unique. -/
theorem C25_root_unique (r : Reg) (k : Bytes) (p q : Elem) (h : RootOf r k p) (h' : RootOf r k q) : p = q := by
  induction h with
  | here k p hp hs =>
    cases h' with
    | here _ _ hq _ => rw [hp] at hq; simpa using hq
    | up _ k' _ hstep _ =>
      obtain ⟨h1, h2, h3, p', hp', rfl⟩ := hstep
      rw [hp] at hp'; cases hp'
      rcases hs with hs | hs | hs
      · exact absurd hs h2
      · rw [hs] at h3; simp at h3
      · exact absurd hs h1
  | up k k' p hstep _ ih =>
    obtain ⟨h1, h2, h3, p', hp', rfl⟩ := hstep
    cases h' with
    | here _ _ hq hs =>
      rw [hp'] at hq; cases hq
      rcases hs with hs | hs | hs
      · exact absurd hs h2
      · rw [hs] at h3; simp at h3
      · exact absurd hs h1
    | up _ k'' _ hstep' hr' =>
      obtain ⟨-, -, -, p'', hp'', rfl⟩ := hstep'
      rw [hp'] at hp''; cases hp''
      exact ih hr'

/-- C25 is false for cyclic registries: from each element on a cycle of parents the lookup never ends. -/
theorem C25_cyclic_refuted (r : Reg) (k : Bytes) (h : Reaches (ParentStep r) k k) : rootFrom r k = none := rootFrom_cycle r k h

/-- Two elements, each with the name of the other, are such a registry, and both can be added. -/
def twoTypes : List Elem :=
  [.mk (str "B") [(str "id", .mk (str "string") [] [] true (.string (str "A")))] [] false .null,
   .mk (str "A") [(str "id", .mk (str "string") [] [] true (.string (str "B")))] [] false .null]

example : Reaches (ParentStep ((twoTypes.map RegOp.add).foldl regRun baseTypes)) (str "A") (str "A") := by
  refine .tail (.single (b := str "B") ⟨by decide, ?_, by decide, _, rfl, rfl⟩) ⟨by decide, ?_, by decide, _, rfl, rfl⟩
  · rw [← isReserved_iff]; decide
  · rw [← isReserved_iff]; decide

/-- C25, base type of a named type: ends for all types whose chain of parents does not return, and what it yields is
    the base type of the first type in the chain that has one. -/
theorem C25_resolve_partial (ts : List Named) (hnd : (ts.map (·.name)).Nodup) (hac : Acyclic (fun a b => IsParent ts a b ∧ b ≠ a)) (s : Bytes) :
    ∃ res, resolveType (typeInfo ts) s = some res ∧ ∀ b, res = some b → BaseOf ts s b := by
  by_cases hs : s = []
  · rw [resolveType, if_pos hs]; exact ⟨none, rfl, by simp⟩
  · refine resolveType_spec ts hnd s ((acyclic_wf _ (ts.map (·.name)) ?_ hac).apply s) hs
    rintro a b ⟨⟨t, ht, rfl, -⟩, -⟩
    exact List.mem_map_of_mem ht

/-- The same in the other direction: a base type that the chain has is found. -/
theorem C25_resolve_finds (ts : List Named) (hnd : (ts.map (·.name)).Nodup) (hne : ∀ t ∈ ts, t.name ≠ []) (s : Bytes) (b : BaseName) (h : BaseOf ts s b) :
    resolveType (typeInfo ts) s = some (some b) := by
  induction h with
  | here t ht b hb =>
    rw [resolveType, if_neg (hne t ht), nameToElement_find ts hnd, find_unique ts hnd t ht]
    simp only [hb]
  | up t ht hn hp b hb ih =>
    rw [resolveType, if_neg (hne t ht), nameToElement_find ts hnd, find_unique ts hnd t ht]
    simp only [hn]
    rw [(childToParent_find ts hnd t.name t.parent).2 ⟨t, ht, rfl, rfl, hp⟩]
    simp only
    by_cases he : t.name = t.parent
    · exfalso
      -- a type that is its own parent has no base type
      have : ∀ s b, BaseOf ts s b → s = t.name → False := by
        intro s b h
        induction h with
        | here u hu b hb => intro e; rw [List.inj_on_of_nodup_map hnd hu ht e] at hb; rw [hn] at hb; simp at hb
        | up u hu _ _ b _ ih => intro e; have := List.inj_on_of_nodup_map hnd hu ht e; subst this; exact ih he.symm
      exact this _ _ hb he.symm
    · rw [if_neg he]; exact ih

/-- The types `# A (*B*)` and `# B (*A*)`: a variable names the parent. -/
def variableParents : List Decl := [⟨str "A", ⟨none, str "B", true⟩, []⟩, ⟨str "B", ⟨none, str "A", true⟩, []⟩]

/-- The named types that they become: the literal is kept, that it is variable is not looked at. -/
def named (d : Decl) : Named := ⟨d.identifier, d.type.literal, d.type.base, []⟩

/-- C25 is false for blueprints: two types with variable parents naming each other are accepted by the parser, and then
    resolving their base type never ends. -/
theorem C25_variable_parent_hang_refuted : (∃ s, buildTables variableParents = some (.ok s)) ∧
    resolveType (typeInfo (variableParents.map named)) (str "A") = none := by
  constructor
  · have hne : ∀ d ∈ variableParents, d.identifier ≠ [] := by decide
    have hnd : (variableParents.map (·.identifier)).Nodup := by decide
    rcases build_spec variableParents hne hnd with ⟨s, h, -⟩ | ⟨e, d, -, hd, hp, -⟩
    · exact ⟨s, h⟩
    · exfalso; revert hp; revert d; decide
  · refine resolveType_cycle _ (by decide) _ (by decide) (.tail (.single (b := str "B") ?_) ?_)
    · exact ⟨named ⟨str "A", ⟨none, str "B", true⟩, []⟩, by decide, rfl, rfl, rfl, by decide, by decide⟩
    · exact ⟨named ⟨str "B", ⟨none, str "A", true⟩, []⟩, by decide, rfl, rfl, rfl, by decide, by decide⟩

/-- C25: for every blueprint whose declarations the parser accepts and in which no parent is a variable, resolving the
    base type of each name ends. -/
theorem C25_accepted (ds : List Decl) (hne : ∀ d ∈ ds, d.identifier ≠ []) (hnd : (ds.map (·.identifier)).Nodup)
    (hvar : ∀ d ∈ ds, d.type.isVariable = false) (hlit : ∀ d ∈ ds, d.type.base ≠ none → d.type.literal = [])
    (s : Tables) (h : buildTables ds = some (.ok s)) (a : Bytes) :
    ∃ res, resolveType (typeInfo (ds.map named)) a = some res ∧ ∀ b, res = some b → BaseOf (ds.map named) a b := by
  have hnd' : ((ds.map named).map (·.name)).Nodup := by
    rw [List.map_map]; exact hnd
  refine C25_resolve_partial (ds.map named) hnd' ?_ a
  intro x hx
  -- a cycle of parents is a cycle of declared parents
  have hmono : ∀ a b, IsParent (ds.map named) a b → ∃ d ∈ ds, d.identifier = a ∧ parent d = some b := by
    rintro a b ⟨t, ht, rfl, rfl, hb⟩
    obtain ⟨d, hd, rfl⟩ := List.mem_map.1 ht
    refine ⟨d, hd, rfl, ?_⟩
    have hbn : d.type.base = none := by
      by_contra hc
      exact hb (hlit d hd hc)
    simp only [parent]
    rw [if_pos ⟨hbn, hb, hvar d hd⟩]; rfl
  have hcyc : Reaches (fun a b => ∃ d ∈ ds, d.identifier = a ∧ parent d = some b) x x :=
    Relation.TransGen.mono (fun _ _ h => hmono _ _ h.1) _ _ hx
  have hex : ∃ d ∈ ds, d.identifier = x ∧ (parent d).isSome := by
    obtain ⟨k', ⟨d, hd, hdx, hp⟩, -⟩ := Relation.TransGen.head'_iff.1 hcyc
    exact ⟨d, hd, hdx, by simp [hp]⟩
  obtain ⟨d, hd, rfl, hp⟩ := hex
  obtain ⟨e, he⟩ := C21_cyclic_chain ds hne hnd d hd hp hcyc
  rw [h] at he; cases he

/-- A blueprint to which this applies: `A (array)`, `B (A)`. -/
example : let ds : List Decl := [⟨str "A", ⟨some .array, [], false⟩, []⟩, ⟨str "B", ⟨none, str "A", false⟩, []⟩]
    resolveType (typeInfo (ds.map named)) (str "B") = some (some .array) := by
  refine C25_resolve_finds _ (by decide) (by decide) _ _ ?_
  exact .up (named ⟨str "B", ⟨none, str "A", false⟩, []⟩) (by decide) rfl (by decide) _ (.here (named ⟨str "A", ⟨some .array, [], false⟩, []⟩) (by decide) _ rfl)

end Verif.Props
