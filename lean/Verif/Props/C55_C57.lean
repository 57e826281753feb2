import Verif.Proof.Expand
import Verif.Props.C26_C27_C29
import Verif.Props.C23_C25
/-!
# C55–C57: expansion of named types
-/
namespace Verif.Props
open Verif Verif.Refract Verif.Registry Verif.Expand Verif.Spec Verif.Spec.Expand

/-! ## C55 -/

/-- C55: if no chain of parents in the registry returns to its start, the expansion of every usable element ends: with an element,
    or with the error that a type includes itself by a mixin.  Missing: cyclic registries (`C55_cyclic_refuted`). -/
theorem C55_ends_partial (r : Reg) (hac : Acyclic (ParentStep r)) (hreg : ∀ k p, StdMap.find r k = some p → Usable True p ∧ p.kind ≠ .holder)
    (e : Elem) (hu : Usable True e) :
    (∃ x, (expandRefract r e).run = some (.ok x)) ∨ (∃ s, (expandRefract r e).run = some (.error (.circular s))) := by
  obtain ⟨y, hy, hne, -⟩ := (good_expand True r hac hreg [] e (by simp) hu).1
  cases y with
  | ok x => exact .inl ⟨x, hy⟩
  | error er =>
    cases er with
    | circular s => exact .inr ⟨s, hy⟩
    | undefined => exact absurd rfl hne

/-- C55: without references (mixins) the expansion succeeds, whatever types contain themselves. -/
theorem C55_no_mixins (r : Reg) (hac : Acyclic (ParentStep r)) (hreg : ∀ k p, StdMap.find r k = some p → Usable False p ∧ p.kind ≠ .holder)
    (e : Elem) (hu : Usable False e) : ∃ x, (expandRefract r e).run = some (.ok x) := by
  obtain ⟨y, hy, hne, hc⟩ := (good_expand False r hac hreg [] e (by simp) hu).1
  cases y with
  | ok x => exact ⟨x, hy⟩
  | error er =>
    cases er with
    | circular s => exact absurd (hc ⟨s, rfl⟩) id
    | undefined => exact absurd rfl hne

/-! ## C56 -/

/-- C56: in the result of an expansion nothing refers to a named type that can still be looked up. -/
theorem C56_resolved (r : Reg) (e x : Elem) (h : (expandRefract r e).run = some (.ok x)) : Resolved r x := expand_resolved r [] e x h

/-! ## C57 -/

/-- C57: an element in which no named type and no reference occurs is left as it is. -/
theorem C57_unchanged (r : Reg) (e : Elem) (h : Plain e) : (expandRefract r e).run = some (.ok e) := plain_same r [] e h

theorem filledId_spec (m : Infos) (i : Elem) : filledId m = some i ↔ Infos.find m (str "id") = some i ∧ i.has = true := by
  unfold filledId
  cases Infos.find m (str "id") with
  | none => simp
  | some j =>
    by_cases hj : j.has = true
    · simp only [Elem.empty, hj, Bool.not_true, Bool.false_eq_true, if_false, Option.some.injEq]
      constructor
      · rintro rfl; exact ⟨rfl, hj⟩
      · exact fun h => h.1
    · have hj' : j.has = false := by simpa using hj
      simp only [Elem.empty, hj', Bool.not_false, if_true]
      constructor
      · intro h; simp at h
      · rintro ⟨h1, h2⟩; simp only [Option.some.injEq] at h1; subst h1; exact absurd h2 hj

theorem forall2_comp {α β γ : Type} {R : α → β → Prop} {S : β → γ → Prop} {T : α → γ → Prop} {a : List α} {b : List β} (h : List.Forall₂ R a b) :
    ∀ {c : List γ}, List.Forall₂ S b c → (∀ x y z, R x y → S y z → T x z) → List.Forall₂ T a c := by
  induction h with
  | nil => intro c hc _; cases hc; exact .nil
  | cons hr _ ih => intro c hc ht; cases hc with | cons hs hrest => exact .cons (ht _ _ _ hr hs) (ih hrest ht)

theorem forall2_maps {R : Bytes → Elem → Prop} {a : List Bytes} {b : List Elem} (h : List.Forall₂ R a b) (hr : ∀ n e, R n e → refOf e = some n) :
    b.map refOf = a.map some := by
  induction h with
  | nil => rfl
  | cons hp _ ih => simp only [List.map_cons, hr _ _ hp, ih]

/-- C57: an element with the name of a type becomes the list of the types from its root ancestor down to the type itself
    (each with the type as its `ref`, and of the kind it has in the registry), followed by the element itself under the name of its
    kind, with its meta data but the `id`, its attributes, and its content expanded, where of several members of an object with
    the same name the last one remains; the `id` of the element, if there is one with a value, is the only meta data of the list. -/
theorem C57_named (r : Reg) (e x : Elem) (hk : typeKind e.kind ∧ e.kind ≠ .select) (hn : ¬ reserved e.name) (l : List Bytes) (hl : Lineage r e.name l)
    (h : (expandRefract r e).run = some (.ok x)) :
    ∃ metas ancestors origin, x = .mk (str "extend") metas [] true (.extend (ancestors ++ [origin])) ∧
      (∀ i, Infos.find e.metas (str "id") = some i → metas = if i.has then [(str "id", i)] else []) ∧
      (Infos.find e.metas (str "id") = none → metas = []) ∧
      ancestors.map refOf = l.reverse.map some ∧
      List.Forall₂ (fun n a => ∃ p, StdMap.find r n = some p ∧ a.kind = p.kind ∧ a.has = p.has) l.reverse ancestors ∧
      origin.kind = e.kind ∧ origin.name = e.kind.name ∧ origin.metas = e.metas.filter (fun p => p.1 ≠ str "id") ∧
      origin.attributes = e.attributes ∧ origin.has = e.has ∧
      ∃ xs, List.Forall₂ (fun c y => (expandRefract r c).run = some (.ok y)) (children e) xs ∧
        children origin = if e.kind = .object then lastOfEach xs else xs := by
  obtain ⟨hk, hs⟩ := hk
  obtain ⟨kh, km, kr, kn⟩ := typeKind_ne hk
  have hnr : isReserved e.name = false := by
    cases hb : isReserved e.name with
    | false => rfl
    | true => exact absurd ((isReserved_iff _).1 hb) hn
  have hx : Ends (expandNamed r [] e) x := by
    have h' : Ends (expand r [] e) x := h
    rw [expand] at h'
    have hex : expandable e = some true := by
      obtain ⟨n, m, a, has, d⟩ := e
      simp only [Elem.name] at hnr
      rw [expandable]
      simp [hnr]
    cases hd : e.data <;> simp only [hd, hex, hnr, Bool.false_eq_true, if_false] at h' <;>
      first | exact h' | (exfalso; simp [Elem.kind, hd, Data.kind] at kh km kr kn hs)
  obtain ⟨t, o, ys, ht, ho, hys, rfl⟩ := named_ends r [] e x hk (by simp) hx
  obtain ⟨o1, o2, o3, o4, o5, ⟨xs, hxs, hoc⟩, -⟩ := members_ends r [] e o kh km ho
  obtain ⟨es, hes, hf⟩ := lineage_spec r e.name l hl [] (by simp)
  -- the ancestors
  have htree : children (inheritanceTree r e.name) = es.reverse ∧ (inheritanceTree r e.name).kind = .extend := by
    unfold inheritanceTree
    rw [hes]
    cases es with
    | nil => exact ⟨rfl, rfl⟩
    | cons a b => exact ⟨rfl, rfl⟩
  obtain ⟨-, -, -, -, -, ⟨zs, hzs, htc⟩, -⟩ := members_ends r _ _ t (by rw [htree.2]; simp) (by rw [htree.2]; simp) ht
  rw [htree.2, if_neg (by simp)] at htc
  rw [htc] at hys; subst hys
  rw [htree.1] at hzs
  have hcomb : List.Forall₂ (fun n a => ∃ p, StdMap.find r n = some p ∧ a.kind = p.kind ∧ a.has = p.has ∧ refOf a = some n) l.reverse zs := by
    have hfr : List.Forall₂ (fun k e => ∃ p, StdMap.find r k = some p ∧ e = treeEntry k p) l.reverse es.reverse := List.forall₂_reverse_iff.2 hf
    refine forall2_comp hfr hzs ?_
    rintro n b c ⟨p, hp, rfl⟩ hz
    obtain ⟨f1, f2, f3, -, -, f6, -⟩ := treeEntry_fields n p
    obtain ⟨g1, g2, g3⟩ := entry_ends r _ _ _ (by rw [f1, f2]; exact kindName_reserved _) hz
    refine ⟨p, hp, g1.trans f1, g3.trans f3, ?_⟩
    rw [refOf, g2, f6, find_set_self]
    rfl
  refine ⟨copyMetaId [] e.metas, zs, o.setMetas (Infos.erase o.metas (str "id")), rfl, ?_, ?_, ?_, ?_, ?_⟩
  · intro i hi
    unfold copyMetaId
    cases hfi : filledId e.metas with
    | some j =>
      obtain ⟨h1, h2⟩ := (filledId_spec _ _).1 hfi
      rw [hi] at h1; cases h1
      rw [if_pos h2]
      simp [clone_cAll, Infos.set]
    | none =>
      have : ¬ i.has = true := fun hh => by
        have := (filledId_spec e.metas i).2 ⟨hi, hh⟩
        rw [hfi] at this; simp at this
      rw [if_neg this]
  · intro hi
    unfold copyMetaId
    have : filledId e.metas = none := by
      cases hfi : filledId e.metas with
      | none => rfl
      | some j => have := ((filledId_spec _ _).1 hfi).1; rw [hi] at this; simp at this
    rw [this]
  · exact forall2_maps hcomb fun n a ⟨p, _, _, _, h4⟩ => h4
  · exact hcomb.imp fun n a ⟨p, h1, h2, h3, _⟩ => ⟨p, h1, h2, h3⟩
  · have hm : ∀ m, (o.setMetas m).kind = o.kind ∧ (o.setMetas m).name = o.name ∧ (o.setMetas m).metas = m ∧ (o.setMetas m).attributes = o.attributes ∧
        (o.setMetas m).has = o.has ∧ children (o.setMetas m) = children o := by
      intro m; obtain ⟨n, m', a, has, d⟩ := o
      exact ⟨rfl, rfl, rfl, rfl, rfl, by cases has <;> rfl⟩
    obtain ⟨m1, m2, m3, m4, m5, m6⟩ := hm (Infos.erase o.metas (str "id"))
    refine ⟨m1.trans o2, m2.trans o1, by rw [m3, o3]; rfl, m4.trans o4, m5.trans o5, xs, hxs, ?_⟩
    rw [m6, hoc, C27_last_wins]

/-- C57: if the chain of parents never ends, the element alone is in the list. -/
theorem C57_no_lineage (r : Reg) (e x : Elem) (hk : typeKind e.kind ∧ e.kind ≠ .select) (hn : ¬ reserved e.name) (hl : ¬ ∃ l, Lineage r e.name l)
    (h : (expandRefract r e).run = some (.ok x)) :
    ∃ metas origin, x = .mk (str "extend") metas [] true (.extend [origin]) ∧ origin.kind = e.kind ∧ origin.attributes = e.attributes := by
  obtain ⟨hk, hs⟩ := hk
  obtain ⟨kh, km, kr, kn⟩ := typeKind_ne hk
  have hnr : isReserved e.name = false := by
    cases hb : isReserved e.name with
    | false => rfl
    | true => exact absurd ((isReserved_iff _).1 hb) hn
  have hx : Ends (expandNamed r [] e) x := by
    have h' : Ends (expand r [] e) x := h
    rw [expand] at h'
    have hex : expandable e = some true := by
      obtain ⟨n, m, a, has, d⟩ := e
      simp only [Elem.name] at hnr
      rw [expandable]
      simp [hnr]
    cases hd : e.data <;> simp only [hd, hex, hnr, Bool.false_eq_true, if_false] at h' <;>
      first | exact h' | (exfalso; simp [Elem.kind, hd, Data.kind] at kh km kr kn hs)
  obtain ⟨t, o, ys, ht, ho, hys, rfl⟩ := named_ends r [] e x hk (by simp) hx
  obtain ⟨o1, o2, o3, o4, o5, -, -⟩ := members_ends r [] e o kh km ho
  have htree : inheritanceTree r e.name = makeEmpty .extend := by
    unfold inheritanceTree
    cases hli : lineage r [] e.name with
    | none => rfl
    | some es => exact absurd (lineage_exists r es _ _ hli) hl
  rw [htree, expandMembers] at ht
  simp only [makeEmpty, Elem.has, Bool.false_eq_true, if_false] at ht
  rw [ends_pure] at ht
  subst ht
  simp only [children] at hys
  subst hys
  obtain ⟨n, m', a, has, d⟩ := o
  exact ⟨_, _, rfl, o2, o4⟩

/-! ## Examples -/

def idMeta (s : String) : Infos := [(str "id", .mk (str "string") [] [] true (.string (str s)))]
def property (k : String) (v : Elem) : Elem := makeElement (.member (some (makeElement (.string (str k)))) (some v))

/-- `A` contains a `B`, `B` inherits from `A`. -/
def twoNamed : Reg :=
  [(str "A", .mk (str "object") (idMeta "A") [] true (.object [property "b" (.mk (str "B") [] [] false (.object []))])),
   (str "B", .mk (str "A") (idMeta "B") [] true (.object [property "s" (makeElement (.string (str "x")))]))]

theorem usable_simple (mix : Prop) (e : Elem) (hk : e.kind = .string ∨ e.kind = .object ∨ e.kind = .array ∨ (e.kind = .member ∧ e.has = true))
    (hc : ∀ c ∈ children e, Usable mix c) : Usable mix e := by
  refine .mk e hc ?_ ?_ ?_ ?_ ?_ ?_ <;> rcases hk with h | h | h | h <;> simp [h]

theorem twoNamed_usable (k : Bytes) (p : Elem) (h : StdMap.find twoNamed k = some p) : Usable False p ∧ p.kind ≠ .holder := by
  simp only [twoNamed, StdMap.find] at h
  split at h
  · simp only [Option.some.injEq] at h; subst h
    refine ⟨usable_simple _ _ (.inr (.inl rfl)) ?_, by simp [Elem.kind, Elem.data, Data.kind]⟩
    simp only [children, List.mem_singleton, forall_eq, property, makeElement]
    refine usable_simple _ _ (.inr (.inr (.inr ⟨rfl, rfl⟩))) ?_
    simp only [children, Option.toList_some, List.singleton_append, List.mem_cons, List.not_mem_nil, or_false, forall_eq_or_imp, forall_eq]
    exact ⟨usable_simple _ _ (.inl rfl) (by simp [children]), usable_simple _ _ (.inr (.inl rfl)) (by simp [children])⟩
  · split at h
    · simp only [Option.some.injEq] at h; subst h
      refine ⟨usable_simple _ _ (.inr (.inl rfl)) ?_, by simp [Elem.kind, Elem.data, Data.kind]⟩
      simp only [children, List.mem_singleton, forall_eq, property, makeElement]
      refine usable_simple _ _ (.inr (.inr (.inr ⟨rfl, rfl⟩))) ?_
      simp only [children, Option.toList_some, List.singleton_append, List.mem_cons, List.not_mem_nil, or_false, forall_eq_or_imp, forall_eq]
      exact ⟨usable_simple _ _ (.inl rfl) (by simp [children]), usable_simple _ _ (.inl rfl) (by simp [children])⟩
    · simp at h

theorem twoNamed_acyclic : Acyclic (ParentStep twoNamed) := by
  have hstep : ∀ a b, ParentStep twoNamed a b → a = str "B" ∧ b = str "A" := by
    rintro a b ⟨-, hr, -, p, hp, rfl⟩
    simp only [twoNamed, StdMap.find] at hp
    split at hp
    · simp only [Option.some.injEq] at hp; subst hp
      exact absurd ((isReserved_iff _).1 (by decide)) hr
    · split at hp
      · rename_i h; simp only [Option.some.injEq] at hp; subst hp; exact ⟨h.symm, rfl⟩
      · simp at hp
  intro a h
  obtain ⟨b, h1, -⟩ := Relation.TransGen.head'_iff.1 h
  obtain ⟨c, -, h2⟩ := Relation.TransGen.tail'_iff.1 h
  have := (hstep _ _ h1).1.symm.trans (hstep _ _ h2).2
  exact absurd this (by decide)

/-- C55, C57: the expansion of an element of type `B` succeeds and lists `A`, `B` and the element. -/
example : let e : Elem := .mk (str "B") [] [] false (.object [])
    ∃ x, (expandRefract twoNamed e).run = some (.ok x) ∧ Lineage twoNamed e.name [str "B", str "A"] ∧ typeKind e.kind ∧ e.kind ≠ .select ∧
      ¬ reserved e.name ∧ Resolved twoNamed x := by
  intro e
  obtain ⟨x, hx⟩ := C55_no_mixins twoNamed twoNamed_acyclic twoNamed_usable e (usable_simple _ _ (.inr (.inl rfl)) (by simp [e, children]))
  have hB : ¬ reserved (str "B") := by rw [← isReserved_iff]; decide
  have hA : ¬ reserved (str "A") := by rw [← isReserved_iff]; decide
  refine ⟨x, hx, ?_, trivial, by simp [e, Elem.kind, Elem.data, Data.kind], hB, C56_resolved _ _ _ hx⟩
  exact .up (str "B") _ _ rfl hB (.up (str "A") _ _ rfl hA (.done _ (.inl ((isReserved_iff _).1 (by decide)))))

/-- C57: an object with a property and an enumeration with a value. -/
example : Plain (.mk (str "object") (idMeta "X") [] true (.object [property "s" (.mk (str "enum") []
    [(str "enumerations", makeElement (.array [makeElement (.string (str "x"))]))] true (.enum (some (makeElement (.string (str "x"))))))])) := by
  have hres : ∀ w, isReserved w = true → reserved w := fun w h => (isReserved_iff w).1 h
  have hstr : ∀ s, Plain (makeElement (.string s)) := by
    intro s
    refine .mk _ (hres _ (by simp only [makeElement, Elem.name, Data.kind, Kind.name]; decide)) ?_ ?_ ?_ ?_ ?_ ?_ <;>
      simp [makeElement, Elem.kind, Elem.data, Data.kind, children]
  refine .mk _ (hres _ (by simp only [Elem.name]; decide)) ?_ ?_ ?_ ?_ ?_ ?_
  · simp [Elem.kind, Elem.data, Data.kind]
  · simp only [children, List.mem_singleton, forall_eq, property, makeElement]
    refine .mk _ (hres _ (by simp only [Elem.name, Data.kind, Kind.name]; decide)) ?_ ?_ ?_ ?_ ?_ ?_
    · simp [Elem.kind, Elem.data, Data.kind]
    · simp only [children, Option.toList_some, List.singleton_append, List.mem_cons, List.not_mem_nil, or_false, forall_eq_or_imp, forall_eq]
      refine ⟨hstr _, .mk _ (hres _ (by simp only [Elem.name]; decide)) ?_ ?_ ?_ ?_ ?_ ?_⟩
      · simp [Elem.kind, Elem.data, Data.kind]
      · simp only [children, Option.toList_some, List.mem_singleton, forall_eq]; exact hstr _
      · simp [Elem.has, Elem.data]
      · simp [Elem.name, Elem.attributes]
      · intro _ x hx
        simp only [Elem.attributes, List.mem_singleton, Prod.mk.injEq, true_and] at hx
        exact ⟨_, hx⟩
      · intro _ x hx
        simp only [Elem.attributes, List.mem_singleton, Prod.mk.injEq, true_and] at hx
        subst hx
        simp only [children, List.mem_singleton, forall_eq]; exact hstr _
    all_goals simp [Elem.kind, Elem.data, Data.kind]
  all_goals simp [Elem.kind, Elem.data, Data.kind]

/-- `A` and `B` inherit from each other, and `A` contains an `A`. -/
def cyclicNamed : Reg :=
  [(str "A", .mk (str "B") (idMeta "A") [] true (.array [.mk (str "A") [] [] false (.array [])])),
   (str "B", .mk (str "A") (idMeta "B") [] false (.array []))]

/-- C55 is false for cyclic registries: a reference to such a type is never resolved. -/
theorem C55_cyclic_refuted : (expandRefract cyclicNamed (makeElement (.ref (str "A")))).run = none := by
  have hroot : rootFrom cyclicNamed (str "A") = none := by
    refine C25_cyclic_refuted _ _ (.tail (.single (b := str "B") ⟨by decide, ?_, by decide, _, rfl, rfl⟩) ⟨by decide, ?_, by decide, _, rfl, rfl⟩) <;>
      (rw [← isReserved_iff]; decide)
  have hlin : inheritanceTree cyclicNamed (str "B") = makeEmpty .extend := by
    have : lineage cyclicNamed [] (str "B") = none := by decide +kernel
    rw [inheritanceTree, this]
  have hin : ∀ ms, ms.contains (str "A") = true → (expand cyclicNamed ms (.mk (str "A") [] [] false (.array []))).run = none := by
    intro ms hms
    have hex : expandable (.mk (str "A") [] [] false (.array [])) = some true := by decide
    have hn : isReserved (str "A") = false := by decide
    rw [expand]
    simp only [Elem.data, hex, Elem.name, hn, Bool.false_eq_true, if_false]
    rw [expandNamed]
    simp only [Elem.name, hms, if_true, hroot]
    rfl
  unfold expandRefract
  rw [expand]
  simp only [makeElement, Elem.data, Elem.has, if_true]
  rw [expandRef, if_neg (by decide), if_neg (by decide)]
  simp only [show StdMap.find cyclicNamed (str "A") = some (.mk (str "B") (idMeta "A") [] true (.array [.mk (str "A") [] [] false (.array [])])) from rfl]
  rw [run_bind, expand]
  have hex : expandable (.mk (str "B") (idMeta "A") [] true (.array [.mk (str "A") [] [] false (.array [])])) = some true := by decide
  have hn : isReserved (str "B") = false := by decide
  simp only [Elem.data, hex, Elem.name, hn, Bool.false_eq_true, if_false]
  rw [expandNamed, if_neg (by simp only [Elem.name]; decide)]
  simp only [Elem.name, hlin]
  rw [run_bind, expandMembers]
  simp only [makeEmpty, Elem.has, Bool.false_eq_true, if_false]
  rw [show ∀ (a : Elem), ExceptT.run (pure a : M Elem) = some (.ok a) from fun _ => rfl]
  simp only
  rw [run_bind, expandMembers]
  simp only [Elem.has, if_true, Elem.data]
  rw [run_bind, expandAll, run_bind, hin _ (by decide)]

end Verif.Props
