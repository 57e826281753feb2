import Verif.Proof.Extend
/-!
# C28 – merging of inheritance chains
-/
namespace Verif.Props
open Verif Verif.Spec Verif.Refract

theorem elementMerge_object (t e : Elem) (ht : t.kind = .object) (he : e.kind = .object)
    (pt : PlainMembers (members t)) (pe : PlainMembers (members e)) :
    ∃ r, elementMerge t e = some r ∧ PlainMembers (members r) ∧ named (members r) = overlay (named (members t)) (named (members e)) := by
  obtain ⟨n, m, a, h, d⟩ := t
  obtain ⟨n2, m2, a2, h2, d2⟩ := e
  cases d <;> simp [Elem.kind, Elem.data, Data.kind] at ht
  cases d2 <;> simp [Elem.kind, Elem.data, Data.kind] at he
  rename_i es ms
  have hov : ∀ b : List (Bytes × Elem), overlay b [] = b := by intro b; simp [overlay, lookup]
  have hmem : ∀ (n m a) (h : Bool) (l : List Elem), members (.mk n m a h (.object l)) = if h then l else [] := by
    intro n m a h l; cases h <;> rfl
  rw [hmem] at pt pe
  simp only [elementMerge, Elem.kind, Elem.data, Data.kind, Elem.setMetas, Elem.setAttributes, Elem.has, valueMerge, hmem]
  cases h2 with
  | false => exact ⟨_, rfl, by rw [hmem]; exact pt, by rw [hmem]; simp [named, hov]⟩
  | true =>
    simp only [if_true] at pe ⊢
    cases ms with
    | nil => exact ⟨_, rfl, by rw [hmem]; exact pt, by rw [hmem]; simp [named, hov]⟩
    | cons x xs =>
      obtain ⟨r, h1, h3, h4⟩ := mergeElems_plain (x :: xs) pe.1 (if h then es else []) pt.1
      rw [foldl_set_overlay _ _ pt.2 pe.2] at h4
      refine ⟨.mk n (infoMerge skipMetaKeywords m m2) (infoMerge (fun _ => false) a a2) true (.object r), ?_, ?_, ?_⟩
      · simp only [List.isEmpty_cons, Bool.false_eq_true, if_false]
        have hE : ∀ f : List Elem → Elem, Option.map f (mergeElems (if h = true then es else []) (x :: xs)) = some (f r) := by
          intro f; rw [h1]; rfl
        exact hE _
      · exact ⟨h3, by show ((named r).map _).Nodup; rw [h4]; exact overlay_nodup _ _ pt.2 pe.2⟩
      · exact h4

theorem mergerLoop_objects (es : List Elem) : ∀ t : Elem, t.kind = .object → PlainMembers (members t) →
    (∀ e ∈ es, e.kind = .object ∧ PlainMembers (members e)) →
    ∃ r, mergerLoop (some t) es = .ok (some r) ∧ PlainMembers (members r) ∧
      named (members r) = es.foldl (fun t e => overlay t (named (members e))) (named (members t)) := by
  induction es with
  | nil => intro t _ pt _; exact ⟨t, rfl, pt, rfl⟩
  | cons e es ih =>
    intro t ht pt h
    obtain ⟨he, pe⟩ := h e (by simp)
    obtain ⟨r, h1, h2, h3⟩ := elementMerge_object t e ht he pt pe
    have hk := (elementMerge_meta t e r h1 (by rw [ht, he])).2.1
    obtain ⟨r', g1, g2, g3⟩ := ih r (by rw [hk, ht]) h2 (fun x hx => h x (by simp [hx]))
    refine ⟨r', ?_, g2, ?_⟩
    · simp only [mergerLoop, mergerStep, he, ht, ne_eq, not_true_eq_false, if_false, mergeable, if_true, h1]
      exact g1
    · rw [g3, h3]; rfl

/-- C28: for every chain of objects whose members have distinct names the merge succeeds; the properties of the result
    are those of the first object overlaid successively with those of the others (inherited properties keep their
    place, an overridden one gets the most derived definition, new ones follow in order); the result keeps the
    element name of the first.  Objects with nameless members (`One Of`, mixins) are not covered here. -/
theorem C28_objects_partial (e : Elem) (es : List Elem)
    (h : ∀ x ∈ e :: es, x.kind = .object ∧ PlainMembers (members x)) :
    ∃ r, merge (e :: es) = .ok (some r) ∧ r.name = e.name ∧ r.kind = .object ∧
      (∀ x ∈ members r, (propertyName x).isSome) ∧ ((named (members r)).map (·.1)).Nodup ∧
      named (members r) = es.foldl (fun t x => overlay t (named (members x))) (named (members e)) := by
  obtain ⟨he, pe⟩ := h e (by simp)
  obtain ⟨r, h1, h2, h3⟩ := mergerLoop_objects es e he pe (fun x hx => h x (by simp [hx]))
  obtain ⟨r', q1, q2, q3, -⟩ := mergerLoop_some es e _ h1
  cases q1
  exact ⟨r, h1, q2, q3.trans he, h2.1, h2.2, h3⟩

theorem lookup_overlay (b d : List (Bytes × Elem)) (k : Bytes) : lookup k (overlay b d) = (lookup k d).or (lookup k b) := by
  have hla : ∀ (a b : List (Bytes × Elem)), lookup k (a ++ b) = (lookup k a).or (lookup k b) := by
    intro a b
    induction a with
    | nil => simp [lookup]
    | cons q r ihr =>
      obtain ⟨k', v⟩ := q
      simp only [List.cons_append, lookup]
      split
      · simp
      · exact ihr
  have h1 : lookup k (b.map (fun p => (p.1, (lookup p.1 d).getD p.2))) = (lookup k b).map fun v => (lookup k d).getD v := by
    induction b with
    | nil => rfl
    | cons q r ihr =>
      obtain ⟨k', v⟩ := q
      simp only [List.map_cons, lookup]
      by_cases hk : k' = k
      · subst hk; simp
      · simp [hk, ihr]
  rw [overlay, hla, h1]
  by_cases hb : k ∈ b.map (·.1)
  · cases hlb : lookup k b with
    | none => exact absurd hb ((lookup_mem k b).1 hlb)
    | some v => cases lookup k d <;> rfl
  · rw [(lookup_mem k b).2 hb]
    simp only [Option.map_none, Option.none_or, Option.or_none]
    clear h1
    induction d with
    | nil => rfl
    | cons q r ihr =>
      obtain ⟨k', v⟩ := q
      rw [List.filter_cons]
      by_cases hk : k' = k
      · subst hk; simp [hb, lookup]
      · split
        · simp only [lookup, if_neg hk]; exact ihr
        · simp only [lookup, if_neg hk]; exact ihr

/-- C28: so the definition of a property in the result is the most derived one of the chain. -/
theorem C28_most_derived_partial (e : Elem) (es : List Elem)
    (h : ∀ x ∈ e :: es, x.kind = .object ∧ PlainMembers (members x)) (k : Bytes) :
    ∃ r, merge (e :: es) = .ok (some r) ∧
      lookup k (named (members r)) = ((e :: es).reverse.findSome? fun x => lookup k (named (members x))) := by
  obtain ⟨r, h1, -, -, -, -, h6⟩ := C28_objects_partial e es h
  refine ⟨r, h1, ?_⟩
  rw [h6]
  clear h h1 h6 r
  rw [List.reverse_cons, List.findSome?_append]
  have : ∀ (es : List Elem) (t : List (Bytes × Elem)), lookup k (es.foldl (fun t x => overlay t (named (members x))) t)
      = (es.reverse.findSome? fun x => lookup k (named (members x))).or (lookup k t) := by
    intro es
    induction es with
    | nil => intro t; simp
    | cons a es ih =>
      intro t
      simp only [List.foldl_cons, ih, List.reverse_cons, List.findSome?_append, lookup_overlay]
      cases (es.reverse.findSome? fun x => lookup k (named (members x))) <;>
        cases h : lookup k (named (members a)) <;> simp [h]
  rw [this]
  cases h : lookup k (named (members e)) <;> simp [h]

/-- C28: in the result of every successful merge a meta datum or attribute has the value of the last element that
    gives one, except that `id`, `prefix` and `namespace` are those of the first element (attributes of enumerations
    are not covered). -/
theorem C28_infos (e : Elem) (es : List Elem) (r : Elem) (h : merge (e :: es) = .ok (some r)) :
    r.name = e.name ∧ r.kind = e.kind ∧
    (∀ k, Infos.find r.metas k = if k ∈ [str "id", str "prefix", str "namespace"] then Infos.find e.metas k
      else (es.reverse.findSome? fun x => lookup k x.metas.reverse).or (Infos.find e.metas k)) ∧
    (e.kind ≠ .enum → ∀ k, Infos.find r.attributes k =
      (es.reverse.findSome? fun x => lookup k x.attributes.reverse).or (Infos.find e.attributes k)) := by
  obtain ⟨r', q1, q2, q3, q4, q5, q6⟩ := mergerLoop_some es e _ h
  cases q1
  have gen : ∀ (skip : Bytes → Bool) (f : Elem → Infos) (k : Bytes) (es : List Elem) (t : Infos),
      Infos.find (es.foldl (fun m e => infoMerge skip m (f e)) t) k =
        if skip k then Infos.find t k else (es.reverse.findSome? fun x => lookup k (f x).reverse).or (Infos.find t k) := by
    intro skip f k es
    induction es with
    | nil => intro t; simp
    | cons a es ih =>
      intro t
      simp only [List.foldl_cons, ih, infoMerge_find, List.reverse_cons, List.findSome?_append]
      by_cases hs : skip k = true
      · simp [hs]
      · simp only [hs, Bool.false_eq_true, if_false]
        cases (es.reverse.findSome? fun x => lookup k (f x).reverse) <;> cases h : lookup k (f a).reverse <;> simp [h]
  refine ⟨q2, q3, ?_, ?_⟩
  · intro k
    rw [q5, gen]
    by_cases hk : k ∈ [str "id", str "prefix", str "namespace"]
    · rw [if_pos hk, if_pos]
      simp at hk; simpa [skipMetaKeywords, or_assoc, and_assoc] using hk
    · rw [if_neg hk, if_neg]
      simp at hk; simpa [skipMetaKeywords, or_assoc, and_assoc] using hk
  · intro hne k
    rw [q6 hne, gen]; simp

/-- The kinds whose values are not collections. -/
def scalarKind (k : Kind) : Prop := k ∈ [Kind.string, .number, .boolean, .ref]

/-- C28: a chain of scalars of the same kind always merges, and the value is that of the last element that has one. -/
theorem C28_scalars (k : Kind) (hk : scalarKind k) (e : Elem) (es : List Elem) (h : ∀ x ∈ e :: es, x.kind = k) :
    ∃ r, merge (e :: es) = .ok (some r) ∧
      (r.has, r.data) = match (e :: es).reverse.find? (·.has) with | some x => (true, x.data) | none => (false, e.data) := by
  have hm : mergeable k = true := by
    simp [scalarKind] at hk; rcases hk with rfl | rfl | rfl | rfl <;> rfl
  have step : ∀ t a : Elem, t.kind = k → a.kind = k → ∃ r, elementMerge t a = some r ∧ r.kind = k ∧
      (r.has, r.data) = if a.has then (true, a.data) else (t.has, t.data) := by
    intro t a ht ha
    obtain ⟨n, m, at', hh, d⟩ := t
    obtain ⟨n2, m2, a2, h2, d2⟩ := a
    simp [scalarKind] at hk
    simp only [Elem.kind, Elem.data] at ht ha
    cases d <;> simp [Data.kind] at ht <;> subst ht <;> simp at hk <;> cases d2 <;> simp [Data.kind] at ha <;> cases h2 <;>
      exact ⟨_, rfl, rfl, rfl⟩
  have loop : ∀ (es : List Elem) (t : Elem), t.kind = k → (∀ x ∈ es, x.kind = k) →
      ∃ r, mergerLoop (some t) es = .ok (some r) ∧
        (r.has, r.data) = match es.reverse.find? (·.has) with | some x => (true, x.data) | none => (t.has, t.data) := by
    intro es
    induction es with
    | nil => intro t _ _; exact ⟨t, rfl, rfl⟩
    | cons a es ih =>
      intro t ht hes
      have ha := hes a (by simp)
      obtain ⟨r, h1, h2, h3⟩ := step t a ht ha
      obtain ⟨r', g1, g2⟩ := ih r h2 (fun x hx => hes x (by simp [hx]))
      refine ⟨r', ?_, ?_⟩
      · simp only [mergerLoop, mergerStep, ha, ht, ne_eq, not_true_eq_false, if_false, hm, if_true, h1]; exact g1
      · rw [g2, List.reverse_cons, List.find?_append]
        cases (es.reverse.find? (·.has)) with
        | some x => rfl
        | none =>
          simp only [Option.none_or, List.find?_cons, List.find?_nil]
          rw [h3]
          cases a.has <;> rfl
  obtain ⟨r, h1, h2⟩ := loop es e (h e (by simp)) (fun x hx => h x (by simp [hx]))
  refine ⟨r, h1, ?_⟩
  rw [h2, List.reverse_cons, List.find?_append]
  cases (es.reverse.find? (·.has)) with
  | some x => rfl
  | none =>
    simp only [Option.none_or, List.find?_cons, List.find?_nil]
    cases hh : e.has <;> rfl

/-- C28: a chain of arrays always merges; the items are those of the first followed by those of the others — provided
    the first has a value, otherwise there are none (see `C28_array_items_lost_refuted`). -/
theorem C28_arrays (e : Elem) (es : List Elem) (h : ∀ x ∈ e :: es, x.kind = .array) :
    ∃ r, merge (e :: es) = .ok (some r) ∧ r.has = e.has ∧ ∃ items : Elem → List Elem,
      (∀ x, ∀ l, x.data = .array l → items x = if x.has then l else []) ∧
      (e.has = true → r.data = .array ((e :: es).flatMap items)) ∧ (e.has = false → r.data = e.data) := by
  let items : Elem → List Elem := fun x => match x.data with | .array l => if x.has then l else [] | _ => []
  have hitems : ∀ x, ∀ l, x.data = .array l → items x = if x.has then l else [] := by
    intro x l hx; simp [items, hx]
  have loop : ∀ (es : List Elem) (t : Elem), t.kind = .array → (∀ x ∈ es, x.kind = .array) →
      ∃ r, mergerLoop (some t) es = .ok (some r) ∧ r.has = t.has ∧
        (t.has = true → r.data = .array ((t :: es).flatMap items)) ∧ (t.has = false → r.data = t.data) := by
    intro es
    induction es with
    | nil =>
      intro t ht _
      refine ⟨t, rfl, rfl, ?_, fun _ => rfl⟩
      intro hh
      obtain ⟨n, m, a, hb, d⟩ := t
      cases d <;> simp [Elem.kind, Elem.data, Data.kind] at ht
      simp only [Elem.has] at hh; subst hh
      simp [items, Elem.data, Elem.has]
    | cons x es ih =>
      intro t ht hes
      have hx := hes x (by simp)
      obtain ⟨n, m, a, hb, d⟩ := t
      obtain ⟨n2, m2, a2, h2, d2⟩ := x
      cases d <;> simp [Elem.kind, Elem.data, Data.kind] at ht
      cases d2 <;> simp [Elem.kind, Elem.data, Data.kind] at hx
      rename_i l l2
      have hstep : ∃ m' a', elementMerge (.mk n m a hb (.array l)) (.mk n2 m2 a2 h2 (.array l2)) =
          some (.mk n m' a' hb (.array (if hb && h2 then l ++ l2 else l))) := by
        cases hb <;> cases h2 <;> exact ⟨_, _, rfl⟩
      obtain ⟨m', a', hstep⟩ := hstep
      obtain ⟨r, g1, g2, g3, g4⟩ := ih (.mk n m' a' hb (.array (if hb && h2 then l ++ l2 else l))) rfl (fun x hx => hes x (by simp [hx]))
      refine ⟨r, ?_, g2, ?_, ?_⟩
      · simp only [mergerLoop, mergerStep, Elem.kind, Elem.data, Data.kind, ne_eq, not_true_eq_false, if_false, mergeable, if_true, hstep]
        exact g1
      · intro hh
        rw [g3 hh]
        simp only [Elem.has] at hh; subst hh
        cases h2 <;> simp [items, Elem.data, Elem.has]
      · intro hh
        rw [g4 hh]
        simp only [Elem.has] at hh; subst hh
        simp [Elem.data]
  obtain ⟨r, h1, h2, h3, h4⟩ := loop es e (h e (by simp)) (fun x hx => h x (by simp [hx]))
  exact ⟨r, h1, h2, items, hitems, h3, h4⟩

/-- C28: a chain that contains elements of different kinds never merges. -/
theorem C28_mixed (es : List Elem) (a b : Elem) (ha : a ∈ es) (hb : b ∈ es) (h : a.kind ≠ b.kind) : ∃ x, merge es = .error x := by
  cases es with
  | nil => simp at ha
  | cons e es =>
    cases hm : merge (e :: es) with
    | error x => exact ⟨x, rfl⟩
    | ok res =>
      exfalso
      obtain ⟨r, -, -, -, q4, -⟩ := mergerLoop_some es e res hm
      have : ∀ x ∈ e :: es, x.kind = e.kind := by
        intro x hx
        rcases List.mem_cons.1 hx with rfl | hx
        · rfl
        · exact q4 x hx
      exact h ((this a ha).trans (this b hb).symm)

/-- C28 refuted for the other kinds: two elements of the same kind that is none of string, number, boolean, array,
    object, enum or ref never merge. -/
theorem C28_same_kind_refuted (a b : Elem) (es : List Elem) (h : a.kind = b.kind)
    (hk : a.kind ∈ [Kind.null, .holder, .member, .extend, .option, .select]) : merge (a :: b :: es) = .error .logicError := by
  have hm : mergeable a.kind = false := by
    simp at hk; rcases hk with hk | hk | hk | hk | hk | hk <;> rw [hk] <;> rfl
  simp only [merge, mergerLoop, mergerStep, h, ne_eq, not_true_eq_false, if_false]
  rw [h] at hm
  simp [hm]

/-- C28 refuted: the items that a type adds to an array type without value are lost. -/
theorem C28_array_items_lost_refuted : ∃ a b r : Elem, a.kind = .array ∧ b.kind = .array ∧ b.has = true ∧
    (∃ l, b.data = .array l ∧ l ≠ []) ∧ merge [a, b] = .ok (some r) ∧ r.has = false ∧ r.data = .array [] :=
  ⟨makeEmpty .array, makeElement (.array [makeElement (.string (str "x"))]), _, rfl, rfl, rfl, ⟨_, rfl, by simp⟩, rfl, rfl, rfl⟩

/-- A member with a string key and value. -/
def exMember (k v : String) : Elem := makeElement (.member (some (makeElement (.string (str k)))) (some (makeElement (.string (str v)))))

/-- C28 refuted: overriding one property of a `One Of` replaces the whole `One Of`, so that an inherited property that
    is not overridden (here `b`) is lost. -/
theorem C28_one_of_lost_refuted : merge
    [makeElement (.object [makeElement (.select [makeElement (.option [exMember "a" "1"]), makeElement (.option [exMember "b" "2"])])]),
     makeElement (.object [exMember "a" "3"])] = .ok (some (makeElement (.object [exMember "a" "3"]))) := by
  rfl

/-- C28 refuted: a member whose key is not a string (a variable property of a named type is an `extend`) is a null
    dereference. -/
theorem C28_non_string_key_refuted : merge
    [makeElement (.object [exMember "a" "1"]),
     makeElement (.object [makeElement (.member (some (makeElement (.extend []))) none)])] = .error .undefined := by
  rfl

/-- Hypotheses of the object theorems hold for a base with two properties and a derived object with an override. -/
example : let base := makeElement (.object [exMember "a" "1", exMember "b" "2"])
    let derived := makeElement (.object [exMember "a" "3", exMember "c" "4"])
    (∀ x ∈ [base, derived], x.kind = .object ∧ PlainMembers (members x)) ∧
    named (members (makeElement (.object [exMember "a" "3", exMember "b" "2", exMember "c" "4"]))) =
      overlay (named (members base)) (named (members derived)) := by
  refine ⟨?_, ?_⟩
  · intro x hx
    simp at hx
    rcases hx with rfl | rfl <;>
      refine ⟨rfl, by simp [members, makeElement, exMember, propertyName], ?_⟩ <;>
      simp [named, members, makeElement, exMember, propertyName, str, asc]
  · simp [named, members, makeElement, exMember, propertyName, str, asc, overlay, lookup]

end Verif.Props
