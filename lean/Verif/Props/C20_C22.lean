import Verif.Proof.NamedTypes
/-!
# C20 – dependency table; C21 – base types; C22 – circular includes
-/
namespace Verif.Props
open Verif Verif.Spec Verif.NamedTypes

/-- C20: the loops of the resolution end for every dependency table, and the resolved set of each type is the set of
    types that can be reached from it by one or more references. -/
theorem C20_closure (t : DepTable) : ∃ t', resolveDeps t (StdMap.keys t) = some t' ∧
    ∀ a b, b ∈ t'.get a ↔ Reaches (fun a b => b ∈ t.get a) a b := resolve_all t

/-- References from a nonempty name: the empty name is never referred to. -/
theorem reaches_filled (s : Tables) (ds : List Decl) (h : Filled s ds) (a : Bytes) (ha : a ≠ []) (b : Bytes) :
    Reaches (fun a b => b ∈ s.dep.get a) a b ↔ Reaches (Refers ds) a b := by
  constructor
  · intro hr
    have : Reaches (Refers ds) a b ∧ b ≠ [] := by
      induction hr with
      | single h' => exact ⟨.single ((h.dep a ha _).1 h'), fun e => h.noEmpty a (e ▸ h')⟩
      | tail _ h' ih => exact ⟨.tail ih.1 ((h.dep _ ih.2 _).1 h'), fun e => h.noEmpty _ (e ▸ h')⟩
    exact this.1
  · intro hr
    have : Reaches (fun a b => b ∈ s.dep.get a) a b ∧ b ≠ [] := by
      induction hr with
      | single h' => have := (h.dep a ha _).2 h'; exact ⟨.single this, fun e => h.noEmpty a (e ▸ this)⟩
      | tail _ h' ih => have := (h.dep _ ih.2 _).2 h'; exact ⟨.tail ih.1 this, fun e => h.noEmpty _ (e ▸ this)⟩
    exact this.1

/-- The resolution of the tables, in full. -/
theorem build_spec (ds : List Decl) (hne : ∀ d ∈ ds, d.identifier ≠ []) (hnd : (ds.map (·.identifier)).Nodup) :
    (∃ s, buildTables ds = some (.ok s) ∧ (∀ a, a ≠ [] → ∀ b, b ∈ s.dep.get a ↔ Reaches (Refers ds) a b) ∧
      (∀ a b, StdMap.find s.base a = some b ↔ HasBase ds a b) ∧ (∀ d ∈ ds, (parent d).isSome → ¬ Bad ds d)) ∨
    (∃ e d, buildTables ds = some (.error e) ∧ d ∈ ds ∧ (parent d).isSome ∧ Bad ds d ∧ Blames ds d e) := by
  have hf := fill_all ds hne hnd
  have hin := fill_inh_mem ds [] ⟨[], [], [], none⟩ (by simp)
  simp only [List.nil_append] at hin
  generalize hs : ds.foldl fill ⟨[], [], [], none⟩ = s at hf hin
  obtain ⟨dep, hd1, hd2⟩ := resolve_all s.dep
  have huniq : ∀ d ∈ ds, ∀ d' ∈ ds, d.identifier = d'.identifier → d = d' := by
    intro d hd d' hd' he
    exact List.inj_on_of_nodup_map hnd hd hd' he
  have hctx : Ctx dep s.inh ds := by
    refine ⟨hf.inh, ?_, hne, huniq⟩
    intro a ha b
    rw [hd2, reaches_filled s ds hf a ha]
  have hbase : BaseOk s.base ds := by
    refine ⟨fun d hd b hb => (hf.base _ _).2 ⟨d, hd, rfl, hb⟩, ?_, ?_⟩
    · intro a b hab
      obtain ⟨d, hd, he, hb⟩ := (hf.base _ _).1 hab
      subst he; exact .own d hd b hb
    · intro d hd hs' hp
      obtain ⟨b, hb⟩ := Option.isSome_iff_exists.1 hs'
      obtain ⟨p, hp⟩ := Option.isSome_iff_exists.1 hp
      obtain ⟨d', hd', he, hb'⟩ := (hf.base _ _).1 hb
      rw [huniq d' hd' d hd he, (parent_own hp).1] at hb'; simp at hb'
  have hE : buildTables ds = resolveTables s := by
    simp only [buildTables, hs, hf.noError]
  rcases resolveBases_spec dep s.inh ds hctx s.inh s.base hbase hin with ⟨base', hr, hok, hall, -⟩ | ⟨e, d', hr, h1, h2, h3⟩
  · left
    refine ⟨{ s with dep := dep, base := base' }, ?_, ?_, ?_, ?_⟩
    · rw [hE, resolveTables, hd1]; simp only [Option.bind_some]; rw [hr]; rfl
    · intro a ha b; exact hctx.dep a ha b
    · intro a b
      refine ⟨hok.sound a b, fun h => ?_⟩
      cases h with
      | own d hd b hb => exact hok.own d hd b hb
      | inherited d hd p hp b hb =>
        have hm : (d.identifier, p) ∈ s.inh := find_mem _ _ _ ((hf.inh _ _).2 ⟨d, hd, rfl, hp⟩)
        obtain ⟨h1, _⟩ := hall d hd ⟨p, hm⟩
        obtain ⟨b', hb'⟩ := Option.isSome_iff_exists.1 h1
        have := hasBase_unique huniq (hok.sound _ _ hb') (.inherited d hd p hp b hb)
        show StdMap.find base' d.identifier = some b
        rw [hb', this]
    · intro d hd hp
      obtain ⟨p, hp⟩ := Option.isSome_iff_exists.1 hp
      have hm : (d.identifier, p) ∈ s.inh := find_mem _ _ _ ((hf.inh _ _).2 ⟨d, hd, rfl, hp⟩)
      exact (hall d hd ⟨p, hm⟩).2
  · right
    refine ⟨e, d', ?_, h1, h2, h3⟩
    rw [hE, resolveTables, hd1]; simp only [Option.bind_some]; rw [hr]; rfl

/-- C20, for declarations: if the tables of a document are built without error, the dependencies of each type are the
    types reachable from it by declared references to parents and nested types. -/
theorem C20_declarations (ds : List Decl) (hne : ∀ d ∈ ds, d.identifier ≠ []) (hnd : (ds.map (·.identifier)).Nodup)
    (s : Tables) (h : buildTables ds = some (.ok s)) (a : Bytes) (ha : a ≠ []) (b : Bytes) :
    b ∈ s.dep.get a ↔ Reaches (Refers ds) a b := by
  rcases build_spec ds hne hnd with ⟨s', h1, h2, -⟩ | ⟨e, d, h1, -⟩
  · rw [h] at h1; cases h1; exact h2 a ha b
  · rw [h] at h1; cases h1

/-- C21: for all declarations of distinct names the resolution ends, and it succeeds iff no inheriting type can be reached
    from itself and the inheritance chain of each ends at a type with a base type. -/
theorem C21_total (ds : List Decl) (hne : ∀ d ∈ ds, d.identifier ≠ []) (hnd : (ds.map (·.identifier)).Nodup) :
    ∃ r, buildTables ds = some r ∧
      ((∃ s, r = .ok s) ↔ ∀ d ∈ ds, (parent d).isSome → ¬ Reaches (Refers ds) d.identifier d.identifier ∧ ∃ b, HasBase ds d.identifier b) := by
  rcases build_spec ds hne hnd with ⟨s, h1, -, -, h4⟩ | ⟨e, d, h1, h2, h3, h4⟩
  · refine ⟨_, h1, fun _ d hd hp => ?_, fun _ => ⟨s, rfl⟩⟩
    have := h4 d hd hp
    simp only [Bad, not_or, Classical.not_not] at this
    exact this
  · refine ⟨_, h1, fun ⟨s, hs⟩ => (by simp at hs), fun h => ?_⟩
    have := h d h2 h3
    rcases h4.1 with h4 | h4
    · exact absurd h4 this.1
    · exact absurd this.2 h4

/-- C21: and then the base type of each type is the one of the root of its inheritance chain. -/
theorem C21_base (ds : List Decl) (hne : ∀ d ∈ ds, d.identifier ≠ []) (hnd : (ds.map (·.identifier)).Nodup)
    (s : Tables) (h : buildTables ds = some (.ok s)) (a : Bytes) (b : BaseType) :
    StdMap.find s.base a = some b ↔ HasBase ds a b := by
  rcases build_spec ds hne hnd with ⟨s', h1, -, h3, -⟩ | ⟨e, d, h1, -⟩
  · rw [h] at h1; cases h1; exact h3 a b
  · rw [h] at h1; cases h1

/-- C21: a type has at most one base type. -/
theorem C21_unique (ds : List Decl) (hnd : (ds.map (·.identifier)).Nodup) (a : Bytes) (b c : BaseType)
    (h : HasBase ds a b) (h' : HasBase ds a c) : b = c :=
  hasBase_unique (fun d hd d' hd' he => List.inj_on_of_nodup_map hnd hd hd' he) h h'

/-- C21: the error that is reported is true of some declaration: its type depends on itself, or its parent is not declared. -/
theorem C21_error (ds : List Decl) (hne : ∀ d ∈ ds, d.identifier ≠ []) (hnd : (ds.map (·.identifier)).Nodup)
    (e : Err) (h : buildTables ds = some (.error e)) : ∃ d ∈ ds, Blames ds d e := by
  rcases build_spec ds hne hnd with ⟨s', h1, -⟩ | ⟨e', d, h1, h2, -, -, h3⟩
  · rw [h] at h1; cases h1
  · rw [h] at h1; cases h1; exact ⟨d, h2, h3⟩

/-- C21: a cyclic inheritance chain, of any length, is always refused. -/
theorem C21_cyclic_chain (ds : List Decl) (hne : ∀ d ∈ ds, d.identifier ≠ []) (hnd : (ds.map (·.identifier)).Nodup)
    (d : Decl) (hd : d ∈ ds) (hp : (parent d).isSome)
    (hcyc : Reaches (fun a b => ∃ d ∈ ds, d.identifier = a ∧ parent d = some b) d.identifier d.identifier) :
    ∃ e, buildTables ds = some (.error e) := by
  rcases build_spec ds hne hnd with ⟨s', h1, -, h3, h4⟩ | ⟨e, d, h1, -⟩
  · exfalso
    apply h4 d hd hp
    left
    refine Relation.TransGen.mono ?_ _ _ hcyc
    rintro a b ⟨d', hd', rfl, hb⟩
    exact parent_refers hd' hb
  · exact ⟨e, h1⟩

/-- C21: two declarations with the same name are always refused. -/
theorem C21_duplicate (ds : List Decl) (h : ¬ (ds.map (·.identifier)).Nodup) : ∃ e, buildTables ds = some (.error e) := by
  suffices hs : (ds.foldl fill ⟨[], [], [], none⟩).error.isSome by
    obtain ⟨e, he⟩ := Option.isSome_iff_exists.1 hs
    exact ⟨e, by simp only [buildTables, he]⟩
  have hkey : ∀ (s : Tables) (d : Decl), (d.identifier ∈ StdMap.keys (fill s d).dep) ∧ (∀ k ∈ StdMap.keys s.dep, k ∈ StdMap.keys (fill s d).dep) ∧
      (d.identifier ∈ StdMap.keys s.dep → (fill s d).error.isSome) ∧ (s.error.isSome → (fill s d).error.isSome) := by
    intro s d
    let dep := match parseTypeDefinition s.dep s.base d.type [] with | .ok t => t | .error _ => s.dep
    have hdep : ∀ k ∈ StdMap.keys s.dep, k ∈ StdMap.keys dep := by
      intro k hk
      simp only [dep]
      split
      · rename_i t ht
        simp only [parseTypeDefinition] at ht
        split at ht
        · exact ((addDependency_other _ _ _ _ ht).2.1 k).2 (.inr hk)
        · simp at ht; subst ht; exact hk
      · exact hk
    have hE : fill s d = match StdMap.find dep d.identifier with
      | some _ => { s with dep := dep, error := some (.duplicate d.identifier) }
      | none => _ := rfl
    cases hfind : StdMap.find dep d.identifier with
    | some v =>
      rw [hE, hfind]
      exact ⟨(StdMap.find_isSome _ _).1 (by simp [hfind]), hdep, fun _ => rfl, fun _ => rfl⟩
    | none =>
      rw [hE, hfind]
      have hn : d.identifier ∉ StdMap.keys dep := (StdMap.find_none _ _).1 hfind
      simp only
      have gen : ∀ v, d.identifier ∈ StdMap.keys (StdMap.set dep d.identifier v) ∧
          ∀ k ∈ StdMap.keys s.dep, k ∈ StdMap.keys (StdMap.set dep d.identifier v) :=
        fun v => ⟨(StdMap.mem_keys_set _ _ _ _).2 (.inl rfl), fun k hk => (StdMap.mem_keys_set _ _ _ _).2 (.inr (hdep k hk))⟩
      have gen2 : d.identifier ∈ StdMap.keys s.dep → False := fun h => hn (hdep _ h)
      split
      · exact ⟨(gen _).1, (gen _).2, fun h => (gen2 h).elim, fun h => h⟩
      · split
        · exact ⟨(gen _).1, (gen _).2, fun h => (gen2 h).elim, fun h => h⟩
        · split
          · exact ⟨(gen _).1, (gen _).2, fun h => (gen2 h).elim, fun h => h⟩
          · exact ⟨(gen _).1, (gen _).2, fun h => (gen2 h).elim, fun h => h⟩
  have gen : ∀ (ds : List Decl) (s : Tables), (∃ d ∈ ds, d.identifier ∈ StdMap.keys s.dep) ∨ ¬ (ds.map (·.identifier)).Nodup →
      (ds.foldl fill s).error.isSome := by
    intro ds
    induction ds with
    | nil => intro s h; simp at h
    | cons d ds ih =>
      intro s h
      obtain ⟨k1, k2, k3, k4⟩ := hkey s d
      by_cases hd : d.identifier ∈ StdMap.keys s.dep
      · exact fill_error ds _ (k3 hd)
      · apply ih
        rcases h with ⟨d', hd', hk⟩ | h
        · rcases List.mem_cons.1 hd' with rfl | hd'
          · exact absurd hk hd
          · exact .inl ⟨d', hd', k2 _ hk⟩
        · rw [List.map_cons, List.nodup_cons] at h
          by_cases hm : d.identifier ∈ ds.map (·.identifier)
          · obtain ⟨d', hd', he⟩ := List.mem_map.1 hm
            exact .inl ⟨d', hd', by rw [he]; exact k1⟩
          · exact .inr (fun hnd => h ⟨hm, hnd⟩)
  exact gen ds _ (.inr h)

/-- `# A (array[B])` and `# B (A)`. -/
def nestedCycle : List Decl :=
  [⟨str "A", ⟨some .array, [], false⟩, [⟨none, str "B", false⟩]⟩, ⟨str "B", ⟨none, str "A", false⟩, []⟩]

/-- C21: what "reached from itself" means includes nested types: `B (A)` with `A (array[B])` is refused although the
    inheritance chain of `B` ends at an array. -/
theorem C21_nested_cycle_rejected : HasBase nestedCycle (str "B") .value ∧ ∃ e, buildTables nestedCycle = some (.error e) := by
  have hne : ∀ d ∈ nestedCycle, d.identifier ≠ [] := by decide
  have hnd : (nestedCycle.map (·.identifier)).Nodup := by decide
  refine ⟨?_, ?_⟩
  · exact .inherited ⟨str "B", ⟨none, str "A", false⟩, []⟩ (by simp [nestedCycle]) (str "A") (by decide) _
      (.own ⟨str "A", ⟨some .array, [], false⟩, [⟨none, str "B", false⟩]⟩ (by simp [nestedCycle]) _ (by decide))
  · obtain ⟨r, hr, hiff⟩ := C21_total nestedCycle hne hnd
    cases r with
    | error e => exact ⟨e, hr⟩
    | ok s =>
      exfalso
      have := (hiff.1 ⟨s, rfl⟩ ⟨str "B", ⟨none, str "A", false⟩, []⟩ (by simp [nestedCycle]) (by decide)).1
      apply this
      refine .tail (.single (b := str "A") ?_) ?_
      · exact ⟨⟨str "B", ⟨none, str "A", false⟩, []⟩, by simp [nestedCycle], rfl, by decide⟩
      · exact ⟨⟨str "A", ⟨some .array, [], false⟩, [⟨none, str "B", false⟩]⟩, by simp [nestedCycle], rfl, by decide⟩

/-- The hypotheses of `C21_error` are met. -/
example : ∃ e, buildTables nestedCycle = some (.error e) ∧ ∃ d ∈ nestedCycle, Blames nestedCycle d e := by
  obtain ⟨e, he⟩ := C21_nested_cycle_rejected.2
  exact ⟨e, he, C21_error nestedCycle (by decide) (by decide) e he⟩

/-- A document to which the theorems apply and that is accepted: `A`, `B (A)`, `C (array[B])`. -/
example : let ds : List Decl := [⟨str "B", ⟨none, str "A", false⟩, []⟩, ⟨str "A", ⟨none, [], false⟩, []⟩, ⟨str "C", ⟨some .array, [], false⟩, [⟨none, str "B", false⟩]⟩]
    (∀ d ∈ ds, d.identifier ≠ []) ∧ (ds.map (·.identifier)).Nodup ∧ HasBase ds (str "B") .implicitObject ∧ Reaches (Refers ds) (str "C") (str "A") := by
  refine ⟨by decide, by decide, ?_, ?_⟩
  · exact .inherited ⟨str "B", ⟨none, str "A", false⟩, []⟩ (by simp) (str "A") (by decide) _
      (.own ⟨str "A", ⟨none, [], false⟩, []⟩ (by simp) _ (by decide))
  · refine .tail (.single (b := str "B") ?_) ?_
    · exact ⟨⟨str "C", ⟨some .array, [], false⟩, [⟨none, str "B", false⟩]⟩, by simp, rfl, by decide⟩
    · exact ⟨⟨str "B", ⟨none, str "A", false⟩, []⟩, by simp, rfl, by decide⟩

/-! ## C22 -/

theorem edges_snoc (R : Bytes → Bytes → Prop) (ops : List Op) (o : Op) :
    Edges R (ops ++ [o]) = fun x y => Edges R ops x y ∨ (x = (Op.edge o).1 ∧ y = (Op.edge o).2) := by
  funext x y
  simp only [Edges, List.mem_append, List.mem_singleton, eq_iff_iff]
  constructor
  · rintro (h | ⟨o', h | rfl, he⟩)
    · exact .inl (.inl h)
    · exact .inl (.inr ⟨o', h, he⟩)
    · right; rw [he]; exact ⟨rfl, rfl⟩
  · rintro ((h | ⟨o', h, he⟩) | ⟨h1, h2⟩)
    · exact .inl h
    · exact .inr ⟨o', .inl h, he⟩
    · exact .inr ⟨o, .inr rfl, by rw [h1, h2]⟩

/-- One operation on a table that represents the edges so far. -/
theorem opStep_spec (base : StdMap BaseType) (t : DepTable) (R : Bytes → Bytes → Prop) (h : Represents t R) (o : Op) :
    (∃ t', opStep base t o = .ok t' ∧ Represents t' (fun x y => R x y ∨ (x = (Op.edge o).1 ∧ y = (Op.edge o).2)) ∧
      (Op.edge o).2 ∈ StdMap.keys t ∧ (∀ k, k ∈ StdMap.keys t' ↔ k = (Op.edge o).1 ∨ k ∈ StdMap.keys t) ∧
      (∀ ty ctx, o = .mixin ty ctx → ¬ (ctx = ty ∨ Reaches R ty ctx))) ∨
    (∃ e, opStep base t o = .error e ∧ ((Op.edge o).2 ∉ StdMap.keys t ∨ ∃ ty ctx, o = .mixin ty ctx ∧ (ctx = ty ∨ Reaches R ty ctx))) := by
  cases o with
  | refer ty ctx =>
    obtain ⟨h1, h2, h3⟩ := addDependency_spec t R h ty ctx false
    by_cases hk : ty ∈ StdMap.keys t
    · obtain ⟨t', ht, hr, hkeys⟩ := h3 hk (by simp)
      exact .inl ⟨t', ht, hr, hk, hkeys, by intro _ _ h; cases h⟩
    · exact .inr ⟨_, h1 hk, .inl hk⟩
  | mixin ty ctx =>
    by_cases hk : ty ∈ StdMap.keys t
    · -- the table after parseTypeDefinition
      have hpt : ∃ t1 R1, parseTypeDefinition t base ⟨none, ty, false⟩ ctx = .ok t1 ∧ Represents t1 R1 ∧ ty ∈ StdMap.keys t1 ∧
          (∀ k, k ∈ StdMap.keys t1 → k = ctx ∨ k ∈ StdMap.keys t) ∧ (∀ k, k ∈ StdMap.keys t → k ∈ StdMap.keys t1) ∧
          (R1 = R ∨ R1 = fun x y => R x y ∨ (x = ctx ∧ y = ty)) := by
        simp only [parseTypeDefinition]
        split
        · obtain ⟨-, -, h3⟩ := addDependency_spec t R h ty ctx false
          obtain ⟨t', ht, hr, hkeys⟩ := h3 hk (by simp)
          exact ⟨t', _, ht, hr, (hkeys ty).2 (.inr hk), fun k hk => (hkeys k).1 hk, fun k hk => (hkeys k).2 (.inr hk), .inr rfl⟩
        · exact ⟨t, R, rfl, h, hk, fun k hk => .inr hk, fun _ h => h, .inl rfl⟩
      obtain ⟨t1, R1, ht1, hr1, hk1, hsub1, hsub2, hR1⟩ := hpt
      -- whether the included type reaches the context is not changed by the edge itself
      have hcyc : (ctx = ty ∨ Reaches R1 ty ctx) ↔ (ctx = ty ∨ Reaches R ty ctx) := by
        rcases hR1 with rfl | rfl
        · exact Iff.rfl
        · rw [reaches_add]
          constructor
          · rintro (h | h | ⟨h1, h2⟩)
            · exact .inl h
            · exact .inr h
            · rcases h1 with h1 | h1
              · exact .inl h1.symm
              · exact .inr h1
          · rintro (h | h)
            · exact .inl h
            · exact .inr (.inl h)
      have hadd : (fun x y => R1 x y ∨ (x = ctx ∧ y = ty)) = fun x y => R x y ∨ (x = ctx ∧ y = ty) := by
        rcases hR1 with rfl | rfl
        · rfl
        · funext x y; simp only [or_assoc, or_self]
      obtain ⟨-, h2, h3⟩ := addDependency_spec t1 R1 hr1 ty ctx true
      by_cases hc : ctx = ty ∨ Reaches R ty ctx
      · right
        refine ⟨.circular ctx, ?_, .inr ⟨ty, ctx, rfl, hc⟩⟩
        simp only [opStep, ht1]
        exact h2 hk1 rfl (hcyc.2 hc)
      · left
        obtain ⟨t', ht, hr, hkeys⟩ := h3 hk1 (fun h => hc (hcyc.1 h.2))
        rw [hadd] at hr
        refine ⟨t', by simp only [opStep, ht1]; exact ht, hr, hk, ?_, ?_⟩
        · intro k
          rw [hkeys]
          constructor
          · rintro (h | h)
            · exact .inl h
            · exact hsub1 k h
          · rintro (h | h)
            · exact .inl h
            · exact .inr (hsub2 k h)
        · intro ty' ctx' he; cases he; exact hc
    · right
      have hpt : parseTypeDefinition t base ⟨none, ty, false⟩ ctx = .ok t ∨ parseTypeDefinition t base ⟨none, ty, false⟩ ctx = .error (.undefinedType ty) := by
        simp only [parseTypeDefinition]
        split
        · exact .inr ((addDependency_spec t R h ty ctx false).1 hk)
        · exact .inl rfl
      rcases hpt with hpt | hpt
      · exact ⟨.undefinedType ty, by simp only [opStep, hpt]; exact (addDependency_spec t R h ty ctx true).1 hk, .inl hk⟩
      · exact ⟨.undefinedType ty, by simp only [opStep, hpt], .inl hk⟩

/-- C22: after any sequence of references and includes that raised no error, the table holds exactly what can be
    reached by the references it started with and those of the sequence. -/
theorem C22_closed (base : StdMap BaseType) (ops : List Op) : ∀ (t t' : DepTable) (R : Bytes → Bytes → Prop),
    (∀ a b, b ∈ t.get a ↔ Reaches R a b) → opRun base t ops = .ok t' → ∀ a b, b ∈ t'.get a ↔ Reaches (Edges R ops) a b := by
  suffices ∀ (ops pre : List Op) (t t' : DepTable) (R : Bytes → Bytes → Prop),
      Represents t (Edges R pre) → opRun base t ops = .ok t' → Represents t' (Edges R (pre ++ ops)) by
    intro t t' R h hr
    refine this ops [] t t' R ?_ hr
    have : Edges R [] = R := by funext x y; simp [Edges]
    rw [this]; exact h
  intro ops
  induction ops with
  | nil => intro pre t t' R h hr; simp only [opRun, Except.ok.injEq] at hr; subst hr; simpa using h
  | cons o ops ih =>
    intro pre t t' R h hr
    simp only [opRun] at hr
    rcases opStep_spec base t _ h o with ⟨t1, h1, h2, -⟩ | ⟨e, h1, -⟩
    · rw [h1] at hr
      have := ih (pre ++ [o]) t1 t' R (by rw [edges_snoc]; exact h2) hr
      simpa using this
    · rw [h1] at hr; simp at hr

/-- C22: after any such history, an include of a type from which the including type can be reached (or of the including
    type itself) is refused. -/
theorem C22_circular (base : StdMap BaseType) (t t' : DepTable) (R : Bytes → Bytes → Prop)
    (h : ∀ a b, b ∈ t.get a ↔ Reaches R a b) (ops : List Op) (hr : opRun base t ops = .ok t') (ty ctx : Bytes)
    (hc : ctx = ty ∨ Reaches (Edges R ops) ty ctx) : ∃ e, opRun base t (ops ++ [.mixin ty ctx]) = .error e := by
  have happ : ∀ (ops : List Op) (t t' : DepTable) (o : Op), opRun base t ops = .ok t' →
      opRun base t (ops ++ [o]) = opRun base t' [o] := by
    intro ops
    induction ops with
    | nil => intro t t' o h; simp only [opRun, Except.ok.injEq] at h; subst h; rfl
    | cons a ops ih =>
      intro t t' o h
      simp only [opRun, List.cons_append] at h ⊢
      cases hs : opStep base t a with
      | error e => rw [hs] at h; simp at h
      | ok t1 => rw [hs] at h; simp only [hs]; exact ih t1 t' o h
  rw [happ ops t t' _ hr]
  have hrep := C22_closed base ops t t' R h hr
  rcases opStep_spec base t' _ hrep (.mixin ty ctx) with ⟨t1, -, -, -, -, hn⟩ | ⟨e, he, -⟩
  · exact absurd hc (hn ty ctx rfl)
  · exact ⟨e, by simp only [opRun, he]⟩

/-- C22: conversely an include that is not circular of a type with an entry in the table is accepted. -/
theorem C22_accepts (base : StdMap BaseType) (t : DepTable) (R : Bytes → Bytes → Prop)
    (h : ∀ a b, b ∈ t.get a ↔ Reaches R a b) (ty ctx : Bytes) (hk : ty ∈ StdMap.keys t) (hc : ¬ (ctx = ty ∨ Reaches R ty ctx)) :
    ∃ t', opRun base t [.mixin ty ctx] = .ok t' := by
  rcases opStep_spec base t R h (.mixin ty ctx) with ⟨t1, h1, -⟩ | ⟨e, -, h2 | ⟨ty', ctx', he, h2⟩⟩
  · exact ⟨t1, by simp only [opRun, h1]⟩
  · exact absurd hk h2
  · cases he; exact absurd h2 hc

/-- C22: so if the declared references are acyclic, the declared references and all accepted includes together are
    acyclic: expanding includes and parents ends. -/
theorem C22_acyclic (base : StdMap BaseType) (ops : List Op) (t t' : DepTable) (R : Bytes → Bytes → Prop)
    (h : ∀ a b, b ∈ t.get a ↔ Reaches R a b) (hr : opRun base t ops = .ok t') (hacyc : Acyclic R) : Acyclic (Includes R ops) := by
  suffices ∀ (ops pre : List Op) (t t' : DepTable), Represents t (Edges R pre) → Acyclic (Includes R pre) →
      opRun base t ops = .ok t' → Acyclic (Includes R (pre ++ ops)) by
    refine this ops [] t t' ?_ ?_ hr
    · have : Edges R [] = R := by funext x y; simp [Edges]
      rw [this]; exact h
    · have : Includes R [] = R := by funext x y; simp [Includes]
      rw [this]; exact hacyc
  intro ops
  induction ops with
  | nil => intro pre t t' _ ha _; simpa using ha
  | cons o ops ih =>
    intro pre t t' hrep ha hr
    simp only [opRun] at hr
    rcases opStep_spec base t _ hrep o with ⟨t1, h1, h2, -, -, hn⟩ | ⟨e, h1, -⟩
    · rw [h1] at hr
      have hacyc' : Acyclic (Includes R (pre ++ [o])) := by
        have hsub : ∀ a b, Reaches (Includes R pre) a b → Reaches (Edges R pre) a b := by
          refine fun a b h => Relation.TransGen.mono ?_ _ _ h
          rintro x y (h | h)
          · exact Or.inl h
          · exact Or.inr ⟨_, h, rfl⟩
        cases o with
        | refer ty ctx =>
          have : Includes R (pre ++ [.refer ty ctx]) = Includes R pre := by
            funext x y; simp [Includes]
          rw [this]; exact ha
        | mixin ty ctx =>
          have : Includes R (pre ++ [.mixin ty ctx]) = fun x y => Includes R pre x y ∨ (x = ctx ∧ y = ty) := by
            funext x y
            simp only [Includes, List.mem_append, List.mem_singleton, Op.mixin.injEq, eq_iff_iff, or_assoc]
            constructor
            · rintro (h | h | ⟨h1, h2⟩)
              · exact .inl h
              · exact .inr (.inl h)
              · exact .inr (.inr ⟨h2, h1⟩)
            · rintro (h | h | ⟨h1, h2⟩)
              · exact .inl h
              · exact .inr (.inl h)
              · exact .inr (.inr ⟨h2, h1⟩)
          rw [this]
          intro a hcyc
          rw [reaches_add] at hcyc
          rcases hcyc with hcyc | ⟨c1, c2⟩
          · exact ha a hcyc
          · apply hn ty ctx rfl
            rcases c1 with rfl | c1
            · rcases c2 with c2 | c2
              · exact .inl c2
              · exact .inr (hsub _ _ c2)
            · rcases c2 with rfl | c2
              · exact .inr (hsub _ _ c1)
              · exact .inr (hsub _ _ (c2.trans c1))
      have := ih (pre ++ [o]) t1 t' (by rw [edges_snoc]; exact h2) hacyc' hr
      simpa using this
    · rw [h1] at hr; simp at hr

/-- C22: an include of a type without entry in the table is refused. -/
theorem C22_unknown_partial (base : StdMap BaseType) (t : DepTable) (R : Bytes → Bytes → Prop)
    (h : ∀ a b, b ∈ t.get a ↔ Reaches R a b) (ty ctx : Bytes) (hk : ty ∉ StdMap.keys t) :
    ∃ e, opRun base t [.mixin ty ctx] = .error e := by
  rcases opStep_spec base t R h (.mixin ty ctx) with ⟨t1, h1, -, h2, -⟩ | ⟨e, h1, -⟩
  · exact absurd h2 hk
  · exact ⟨e, by simp only [opRun, h1]⟩

/-- `# A (array[Foo])` and `# B`. -/
def unknownNested : List Decl := [⟨str "A", ⟨some .array, [], false⟩, [⟨none, str "Foo", false⟩]⟩, ⟨str "B", ⟨none, [], false⟩, []⟩]

/-- C22 refuted: a type that is declared nowhere but used as a nested type gets an empty entry in the table while the
    dependencies are resolved, and including it is accepted. -/
theorem C22_unknown_include_refuted : (∀ d ∈ unknownNested, d.identifier ≠ str "Foo") ∧
    ∃ s t, buildTables unknownNested = some (.ok s) ∧ opRun s.base s.dep [.mixin (str "Foo") (str "B")] = .ok t := by
  refine ⟨by decide, ?_⟩
  have h1 : unknownNested.foldl fill ⟨[], [], [], none⟩ =
      ⟨[(str "A", [str "Foo"]), (str "B", [])], [(str "A", .value), (str "B", .implicitObject)], [], none⟩ := by rfl
  have hA : resolveDep [(str "A", [str "Foo"]), (str "B", [])] (str "A") = some [(str "A", [str "Foo"]), (str "B", []), (str "Foo", [])] := by
    rw [resolveDep]; rfl
  have hB : resolveDep [(str "A", [str "Foo"]), (str "B", []), (str "Foo", [])] (str "B") = some [(str "A", [str "Foo"]), (str "B", []), (str "Foo", [])] :=
    resolveDep_empty _ _ rfl
  refine ⟨⟨[(str "A", [str "Foo"]), (str "B", []), (str "Foo", [])], [(str "A", .value), (str "B", .implicitObject)], [], none⟩, _, ?_, rfl⟩
  simp only [buildTables, h1, resolveTables, StdMap.keys, List.map_cons, List.map_nil, resolveDeps, hA, hB, Option.bind_some]
  rfl

/-- A history to which the theorems apply: the table of `A`, `B (A)` and an include of `A` in `C`, then a circular one. -/
example : let t : DepTable := [(str "A", []), (str "B", [str "A"]), (str "C", [])]
    (∃ t', opRun [] t [.mixin (str "B") (str "C"), .refer (str "C") (str "C")] = .ok t') ∧
    opRun [] t [.mixin (str "B") (str "C"), .mixin (str "C") (str "A")] = .error (.circular (str "A")) :=
  ⟨⟨_, rfl⟩, rfl⟩

end Verif.Props
