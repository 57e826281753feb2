import Verif.Proof.Element
import Verif.Proof.SerializeSo
/-!
# C26 – attribute collections; C27 – members of objects; C29 – copies and equality
-/
namespace Verif.Props
open Verif Verif.Spec Verif.Refract

/-- The operations of the code. -/
def infoStep (m : Infos) : InfoOp → Infos
  | .set k e => Infos.set m k e
  | .erase k => Infos.erase m k
  | .claim k => (Infos.claim m k).2

/-- The ordered map that a collection stands for. -/
def omapOf (m : Infos) : OMap := ⟨m.map (·.1), fun k => Infos.find m k⟩

theorem infoStep_refines (m : Infos) (h : (m.map (·.1)).Nodup) (op : InfoOp) :
    ((infoStep m op).map (·.1)).Nodup ∧ omapOf (infoStep m op) = (omapOf m).apply op := by
  cases op with
  | set k e =>
    refine ⟨?_, ?_⟩
    · simp only [infoStep, Infos.keys_set]
      split
      · exact h
      · rename_i hk
        rw [List.nodup_append]
        exact ⟨h, by simp, by intro a ha b hb; simp at hb; subst hb; exact fun e => hk (e ▸ ha)⟩
    · simp only [omapOf, infoStep, OMap.apply, Infos.keys_set, Infos.find_set]
      rfl
  | erase k =>
    refine ⟨?_, ?_⟩
    · simp only [infoStep, Infos.keys_erase]
      exact h.filter _
    · simp only [omapOf, infoStep, OMap.apply, Infos.keys_erase, Infos.find_erase]
  | claim k =>
    simp only [omapOf, infoStep, OMap.apply, Infos.claim_snd m k h, Infos.keys_erase, Infos.find_erase]
    exact ⟨h.filter _, trivial⟩

/-- C26: after any sequence of operations a collection of attributes is the ordered map that the operations build:
    same keys in the same order, each once, same values. -/
theorem C26_ordered_map (ops : List InfoOp) :
    ((ops.foldl infoStep []).map (·.1)).Nodup ∧
    omapOf (ops.foldl infoStep []) = ops.foldl OMap.apply ⟨[], fun _ => none⟩ := by
  suffices ∀ (m : Infos), (m.map (·.1)).Nodup → ((ops.foldl infoStep m).map (·.1)).Nodup ∧
      omapOf (ops.foldl infoStep m) = ops.foldl OMap.apply (omapOf m) from this [] (by simp)
  induction ops with
  | nil => intro m h; exact ⟨h, rfl⟩
  | cons o os ih =>
    intro m h
    obtain ⟨h1, h2⟩ := infoStep_refines m h o
    simp only [List.foldl_cons]
    rw [← h2]
    exact ih _ h1

/-- C26: claiming an attribute hands out the value it had (and removes it, see `C26_ordered_map`). -/
theorem C26_claim (ops : List InfoOp) (k : Bytes) :
    (Infos.claim (ops.foldl infoStep []) k).1 = (ops.foldl OMap.apply ⟨[], fun _ => none⟩).val k := by
  rw [Infos.claim_fst, ← (C26_ordered_map ops).2]; rfl

/-- C26: looking up an attribute gives the value of the last operation on its name. -/
theorem C26_find (ops : List InfoOp) (k : Bytes) :
    Infos.find (ops.foldl infoStep []) k = (ops.foldl OMap.apply ⟨[], fun _ => none⟩).val k := by
  rw [← (C26_ordered_map ops).2]; rfl

example (e f : Elem) : (List.foldl infoStep [] [.set (str "a") e, .set (str "b") e, .set (str "a") f, .claim (str "b"), .erase (str "c")]) = [(str "a", f)] := by
  simp [infoStep, Infos.set, Infos.claim, Infos.erase, str, asc]

theorem pushBack_key_none (es : List Elem) (e : Elem) (h : propertyName e = none) : objectPushBack es e = es ++ [e] := by
  simp only [objectPushBack, stringKey_eq, h]
  split <;> rfl

theorem pushBack_key (es : List Elem) (e : Elem) (k : Bytes) (h : propertyName e = some k) :
    objectPushBack es e = es.eraseIdx (es.findIdx (fun x => propertyName x = some k)) ++ [e] := by
  simp only [objectPushBack, stringKey_eq, h, objectFind]
  split
  · rename_i he; simp [List.isEmpty_iff.1 he]
  · split
    · rfl
    · rename_i hl; rw [List.eraseIdx_of_length_le (by omega)]

/-- Removing the first member with a name from a list in which names are unique removes all of them. -/
theorem eraseIdx_unique (es : List Elem) (k : Bytes) (h : (es.filterMap propertyName).Nodup) :
    es.eraseIdx (es.findIdx (fun x => propertyName x = some k)) = es.filter (fun x => propertyName x ≠ some k) := by
  induction es with
  | nil => rfl
  | cons a r ih =>
    by_cases ha : propertyName a = some k
    · simp only [List.filterMap_cons, ha, List.nodup_cons] at h
      rw [List.findIdx_cons]
      simp only [ha, decide_true, cond_true, List.eraseIdx_zero, List.tail_cons, List.filter_cons, ne_eq, not_true_eq_false,
        decide_false, Bool.false_eq_true, if_false]
      rw [List.filter_eq_self.2]
      intro x hx
      have : propertyName x ≠ some k := fun e => h.1 (List.mem_filterMap.2 ⟨x, hx, e⟩)
      simpa using this
    · have hr : (r.filterMap propertyName).Nodup := by
        rw [List.filterMap_cons] at h
        split at h
        · exact h
        · exact (List.nodup_cons.1 h).2
      rw [List.findIdx_cons]
      have := ih hr
      simp only [ne_eq, decide_not] at this
      simp [ha, this]

theorem lastOfEach_append_one (es : List Elem) (e : Elem) :
    lastOfEach (es ++ [e]) = (lastOfEach es).filter (fun x => (propertyName x).isNone || propertyName x ≠ propertyName e) ++ [e] := by
  induction es with
  | nil => simp [lastOfEach]
  | cons a r ih =>
    simp only [List.cons_append, lastOfEach, ih]
    by_cases hs : (propertyName a).isSome
    · by_cases hr : ∃ f ∈ r, propertyName f = propertyName a
      · have h1 : ∃ f ∈ r ++ [e], propertyName f = propertyName a := by
          obtain ⟨f, hf, hp⟩ := hr; exact ⟨f, by simp [hf], hp⟩
        rw [if_pos ⟨hs, h1⟩, if_pos ⟨hs, hr⟩]
      · by_cases he : propertyName e = propertyName a
        · rw [if_pos ⟨hs, e, by simp, he⟩, if_neg (fun h => hr h.2)]
          have : (propertyName a).isNone = false := by cases hp : propertyName a <;> simp_all
          simp [List.filter_cons, he, this]
        · have h1 : ¬ ∃ f ∈ r ++ [e], propertyName f = propertyName a := by
            rintro ⟨f, hf, hp⟩
            rcases List.mem_append.1 hf with hf | hf
            · exact hr ⟨f, hf, hp⟩
            · simp at hf; subst hf; exact he hp
          rw [if_neg (fun h => h1 h.2), if_neg (fun h => hr h.2)]
          have he' : ¬ propertyName a = propertyName e := fun x => he x.symm
          simp [he']
    · rw [if_neg (fun h => hs h.1), if_neg (fun h => hs h.1)]
      have : (propertyName a).isNone = true := by cases hp : propertyName a <;> simp_all
      simp [this]

theorem lastOfEach_nodup (es : List Elem) : ((lastOfEach es).filterMap propertyName).Nodup := by
  induction es with
  | nil => simp [lastOfEach]
  | cons a r ih =>
    have hsub : ∀ (l : List Elem) x, x ∈ lastOfEach l → x ∈ l := by
      intro l
      induction l with
      | nil => intro x hx; simp [lastOfEach] at hx
      | cons b l ihl =>
        intro x hx
        simp only [lastOfEach] at hx
        split at hx
        · exact List.mem_cons_of_mem _ (ihl x hx)
        · rcases List.mem_cons.1 hx with rfl | hx
          · simp
          · exact List.mem_cons_of_mem _ (ihl x hx)
    simp only [lastOfEach]
    split
    · exact ih
    · rename_i h
      rw [List.filterMap_cons]
      split
      · exact ih
      · rename_i k hk
        rw [List.nodup_cons]
        refine ⟨?_, ih⟩
        intro hmem
        obtain ⟨x, hx, hxk⟩ := List.mem_filterMap.1 hmem
        exact h ⟨by simp [hk], x, hsub r x hx, by rw [hxk, hk]⟩

/-- C27: the object built by any sequence of appends consists of the appended elements of which no later one has the
    same property name, in the order of their append. -/
theorem C27_last_wins (es : List Elem) : es.foldl objectPushBack [] = lastOfEach es := by
  have key : ∀ es : List Elem, List.foldl objectPushBack [] es = lastOfEach es := by
    intro es
    generalize hn : es.length = n
    induction n generalizing es with
    | zero => simp [List.length_eq_zero_iff.1 hn, lastOfEach]
    | succ n ih =>
      rcases List.eq_nil_or_concat es with rfl | ⟨r, e, rfl⟩
      · simp at hn
      · simp only [List.concat_eq_append] at hn ⊢
        rw [List.foldl_append, List.foldl_cons, List.foldl_nil, ih r (by simpa using hn), lastOfEach_append_one]
        cases hk : propertyName e with
        | none =>
          rw [pushBack_key_none _ _ hk]
          congr 1
          rw [List.filter_eq_self.2]
          intro x _
          cases hx : propertyName x <;> simp
        | some k =>
          rw [pushBack_key _ _ k hk, eraseIdx_unique _ _ (lastOfEach_nodup r)]
          congr 1
          apply List.filter_congr
          intro x _
          cases hx : propertyName x <;> simp
  exact key es

/-- C27: so it has at most one member per property name. -/
theorem C27_unique (es : List Elem) : ((es.foldl objectPushBack []).filterMap propertyName).Nodup := by
  rw [C27_last_wins]; exact lastOfEach_nodup es

/-- C27: adding a member by name replaces the member of that name of any object built so far. -/
theorem C27_addMember (es : List Elem) (name : Bytes) (v : Option Elem) :
    ((objectAddMember (es.foldl objectPushBack []) name v).filterMap propertyName).Nodup ∧
    objectAddMember (es.foldl objectPushBack []) name v =
      (es.foldl objectPushBack []).filter (fun x => propertyName x ≠ some name) ++
        [makeElement (.member (some (makeElement (.string name))) v)] := by
  have hn := C27_unique es
  generalize es.foldl objectPushBack [] = l at hn
  have he : objectAddMember l name v = l.filter (fun x => propertyName x ≠ some name) ++
        [makeElement (.member (some (makeElement (.string name))) v)] := by
    rw [← eraseIdx_unique l name hn]
    simp only [objectAddMember, objectFind, stringKey_eq]
    split
    · rfl
    · rename_i h; rw [List.eraseIdx_of_length_le (by omega)]
  refine ⟨?_, he⟩
  rw [he, List.filterMap_append, List.nodup_append]
  refine ⟨?_, by simp [propertyName, makeElement], ?_⟩
  · exact (List.Sublist.filterMap _ List.filter_sublist).nodup hn
  · intro a ha b hb
    simp [propertyName, makeElement] at hb
    subst hb
    obtain ⟨x, hx, hxa⟩ := List.mem_filterMap.1 ha
    have := (List.mem_filter.1 hx).2
    simp at this
    intro e; exact this (by rw [hxa, e])

/-- Two members named "a" and one named "b". -/
example : let m := fun (k v : String) => makeElement (.member (some (makeElement (.string (str k)))) (some (makeElement (.string (str v)))))
    lastOfEach [m "a" "1", m "b" "2", m "a" "3"] = [m "b" "2", m "a" "3"] := by
  simp [lastOfEach, propertyName, makeElement, str, asc]

/-- C29: a full copy is the original. -/
theorem C29_full_copy (e : Elem) : clone cAll e = e := clone_cAll e

/-- C29: so it serialises to the same document, with or without source maps. -/
theorem C29_copy_serialises (e : Elem) (maps : Bool) : renderSo (clone cAll e) maps = renderSo e maps := by rw [C29_full_copy]

/-- C29: and it compares equal (for trees without null enumeration values; otherwise the comparison is undefined). -/
theorem C29_copy_equal (e : Elem) (h : noNull e = true) : eqElem e (clone cAll e) = some true := by
  rw [C29_full_copy]; exact ((eq_iff e e h h).2).2 rfl

/-- C29: a copy with any flags has the chosen parts of the original and the defaults for the others; without the
    identifier the meta data lack exactly the entries named `id`. -/
theorem C29_chosen_parts (f : CloneFlags) (e : Elem) :
    (clone f e).kind = e.kind ∧
    (clone f e).name = (if f.cElement then e.name else e.kind.name) ∧
    (clone f e).metas = (if f.cMeta then (if f.cNoMetaId then e.metas.filter (fun p => p.1 ≠ str "id") else e.metas) else []) ∧
    (clone f e).attributes = (if f.cAttributes then e.attributes else []) ∧
    (clone f e).has = (f.cValue && e.has) ∧
    (f.cValue = true → (clone f e).data = e.data) := by
  obtain ⟨n, m, a, h, d⟩ := e
  simp only [clone, Elem.kind, Elem.name, Elem.metas, Elem.attributes, Elem.has, Elem.data, cloneInfos_id, cloneData_id, Infos.erase]
  refine ⟨?_, trivial, trivial, trivial, ?_, ?_⟩
  · split
    · rfl
    · exact default_kind _
  · cases f.cValue <;> rfl
  · intro hv; simp [hv]

/-- C29: the comparison of elements is defined, and it is true iff the elements agree in everything but the names. -/
theorem C29_equality (e e' : Elem) (h : noNull e = true) (h' : noNull e' = true) :
    eqElem e e' ≠ none ∧ (eqElem e e' = some true ↔ anonymous e = anonymous e') := eq_iff e e' h h'

/-- C29: hence on such trees it is symmetric and transitive. -/
theorem C29_equivalence (a b c : Elem) (ha : noNull a = true) (hb : noNull b = true) (hc : noNull c = true) :
    (eqElem a b = some true → eqElem b a = some true) ∧
    (eqElem a b = some true → eqElem b c = some true → eqElem a c = some true) := by
  rw [(eq_iff a b ha hb).2, (eq_iff b a hb ha).2, (eq_iff b c hb hc).2, (eq_iff a c ha hc).2]
  exact ⟨fun h => h.symm, fun h1 h2 => h1.trans h2⟩

/-- C29 refuted in the other direction: elements that compare equal may serialise differently, since the names are
    not compared (e.g. an object that inherits from `A` and one that inherits from `B`). -/
theorem C29_equal_not_same_refuted : ∃ e e' : Elem, noNull e = true ∧ noNull e' = true ∧ eqElem e e' = some true ∧
    renderSo e true ≠ renderSo e' true := by
  refine ⟨.mk (str "A") [] [] true (.object []), .mk (str "B") [] [] true (.object []), rfl, rfl, rfl, ?_⟩
  simp [renderSo, serAny, serInfos, serData, serList, str, asc]

/-- C29 refuted: comparing an enumeration whose value is null dereferences the null pointer, also with its own copy. -/
theorem C29_null_enum_refuted : eqElem (makeElement (.enum none)) (clone cAll (makeElement (.enum none))) = none := by
  rw [C29_full_copy]; rfl

example : noNull (.mk (str "B") [(str "id", makeElement (.string (str "T")))] [] true (.object
    [makeElement (.member (some (makeElement (.string (str "a")))) (some (makeElement (.enum (some (makeElement (.number (str "1"))))))))])) = true := by
  rfl

end Verif.Props
