import Verif.Model.Extend
import Verif.Spec.Merge
import Verif.Proof.Element
namespace Verif.Refract
open Verif Verif.Spec

theorem keyText_of_property {e : Elem} {k : Bytes} (h : propertyName e = some k) :
    keyText e = some k ∧ e.kind = .member ∧ (∃ a b, e.data = .member a b) := by
  obtain ⟨n, m, a, hh, d⟩ := e
  cases hh
  · cases d <;> simp [propertyName] at h
  · cases d <;> try (simp [propertyName] at h)
    rename_i key v
    cases key with
    | none => simp [propertyName] at h
    | some key =>
      obtain ⟨n', m', a', h', d'⟩ := key
      cases h' <;> cases d' <;> simp [propertyName] at h
      subst h
      exact ⟨rfl, rfl, _, _, rfl⟩

theorem mergeMatch_plain {m e : Elem} {k k' : Bytes} (hm : propertyName m = some k) (he : propertyName e = some k') :
    mergeMatch m e = some (k == k') := by
  obtain ⟨h1, -, a, b, h2⟩ := keyText_of_property hm
  obtain ⟨h3, -, c, d, h4⟩ := keyText_of_property he
  simp [mergeMatch, h2, h1, matchKey, h4, h3, sameKey]

theorem findM_plain (m : Elem) (k : Bytes) (hm : propertyName m = some k) (es : List Elem) (h : ∀ e ∈ es, (propertyName e).isSome) :
    findM (mergeMatch m) es = some (es.findIdx (fun e => propertyName e = some k)) := by
  induction es with
  | nil => rfl
  | cons e r ih =>
    have hs := h e (by simp)
    cases hp : propertyName e with
    | none => simp [hp] at hs
    | some k' =>
      simp only [findM, mergeMatch_plain hm hp, List.findIdx_cons, hp]
      rw [ih (fun x hx => h x (by simp [hx]))]
      by_cases hk : k = k'
      · simp [hk]
      · have : ¬ k' = k := fun x => hk x.symm
        have hb : (k == k') = false := by simpa using hk
        simp [hb, this]

theorem named_keys_mem (es : List Elem) (k : Bytes) : k ∈ (named es).map (·.1) ↔ ∃ e ∈ es, propertyName e = some k := by
  simp only [named, List.mem_map, List.mem_filterMap, Option.map_eq_some_iff]
  constructor
  · rintro ⟨p, ⟨e, he, k', hk', rfl⟩, rfl⟩; exact ⟨e, he, hk'⟩
  · rintro ⟨e, he, hk⟩; exact ⟨(k, e), ⟨e, he, k, hk, rfl⟩, rfl⟩

theorem named_set (es : List Elem) (m : Elem) (k : Bytes) (hm : propertyName m = some k) (h : ∀ e ∈ es, (propertyName e).isSome)
    (hlt : es.findIdx (fun e => propertyName e = some k) < es.length) :
    named (es.set (es.findIdx (fun e => propertyName e = some k)) m) = Infos.set (named es) k m := by
  induction es with
  | nil => simp at hlt
  | cons e r ih =>
    have hs := h e (by simp)
    cases hp : propertyName e with
    | none => simp [hp] at hs
    | some k' =>
      rw [List.findIdx_cons] at hlt ⊢
      by_cases hk : k' = k
      · subst hk
        simp [hp, named, hm, Infos.set]
      · simp only [hp, Option.some.injEq, hk, decide_false, cond_false] at hlt ⊢
        simp only [List.set_cons_succ, named, List.filterMap_cons, hp, Option.map_some, Infos.set, if_neg hk]
        congr 1
        exact ih (fun x hx => h x (by simp [hx])) (by simpa using hlt)

theorem named_append (a b : List Elem) : named (a ++ b) = named a ++ named b := by simp [named]

theorem Infos.set_of_not_mem (m : Infos) (k : Bytes) (e : Elem) (h : k ∉ m.map (·.1)) : Infos.set m k e = m ++ [(k, e)] := by
  induction m with
  | nil => rfl
  | cons p r ih =>
    obtain ⟨k', e'⟩ := p
    simp only [List.map_cons, List.mem_cons, not_or] at h
    simp only [Infos.set]
    rw [if_neg (fun x => h.1 x.symm), ih h.2]
    rfl

theorem mergeStep_plain (es : List Elem) (m : Elem) (k : Bytes) (hm : propertyName m = some k) (h : ∀ e ∈ es, (propertyName e).isSome) :
    ∃ r, mergeStep es m = some r ∧ (∀ e ∈ r, (propertyName e).isSome) ∧ named r = Infos.set (named es) k m := by
  rw [mergeStep, findM_plain m k hm es h]
  simp only [Option.map_some]
  by_cases hl : es.findIdx (fun e => propertyName e = some k) = es.length
  · rw [if_pos hl]
    have hnone : ∀ e ∈ es, propertyName e ≠ some k := by
      intro e he
      have := List.findIdx_eq_length.1 hl e he
      simpa using this
    have hpb : objectPushBack es m = es ++ [m] := by
      simp only [objectPushBack, stringKey_eq, hm, objectFind]
      split
      · rfl
      · rw [hl]; simp
    refine ⟨_, rfl, ?_, ?_⟩
    · rw [hpb]; intro e he
      rcases List.mem_append.1 he with he | he
      · exact h e he
      · simp at he; subst he; simp [hm]
    · rw [hpb, named_append, Infos.set_of_not_mem]
      · simp [named, hm]
      · rw [named_keys_mem]; rintro ⟨e, he, hk⟩; exact hnone e he hk
  · rw [if_neg hl]
    have hlt : es.findIdx (fun e => propertyName e = some k) < es.length := by
      have := List.findIdx_le_length (xs := es) (p := fun e => propertyName e = some k); omega
    refine ⟨_, rfl, ?_, named_set es m k hm h hlt⟩
    intro e he
    rcases List.mem_or_eq_of_mem_set he with he | rfl
    · exact h e he
    · simp [hm]

theorem mergeElems_plain (ms : List Elem) (hms : ∀ e ∈ ms, (propertyName e).isSome) : ∀ (es : List Elem), (∀ e ∈ es, (propertyName e).isSome) →
    ∃ r, mergeElems es ms = some r ∧ (∀ e ∈ r, (propertyName e).isSome) ∧
      named r = (named ms).foldl (fun t p => Infos.set t p.1 p.2) (named es) := by
  induction ms with
  | nil => intro es h; exact ⟨es, rfl, h, rfl⟩
  | cons m ms ih =>
    intro es h
    have hs := hms m (by simp)
    cases hp : propertyName m with
    | none => simp [hp] at hs
    | some k =>
      obtain ⟨r, h1, h2, h3⟩ := mergeStep_plain es m k hp h
      obtain ⟨r', h4, h5, h6⟩ := ih (fun x hx => hms x (by simp [hx])) r h2
      refine ⟨r', by simp [mergeElems, h1, h4], h5, ?_⟩
      rw [h6, h3]
      simp [named, hp]

theorem lookup_mem {α} (k : Bytes) (l : List (Bytes × α)) : lookup k l = none ↔ k ∉ l.map (·.1) := by
  induction l with
  | nil => simp [lookup]
  | cons p r ih =>
    obtain ⟨k', v⟩ := p
    simp only [lookup, List.map_cons, List.mem_cons, not_or]
    by_cases h : k' = k
    · simp [h]
    · have : ¬ k = k' := fun x => h x.symm
      simp [h, this, ih]

theorem foldl_set_overlay (d : List (Bytes × Elem)) : ∀ (b : List (Bytes × Elem)), (b.map (·.1)).Nodup → (d.map (·.1)).Nodup →
    d.foldl (fun t p => Infos.set t p.1 p.2) b = overlay b d := by
  induction d with
  | nil => intro b _ _; simp [overlay, lookup]
  | cons p d ih =>
    intro b hb hd
    obtain ⟨k, v⟩ := p
    simp only [List.map_cons, List.nodup_cons] at hd
    have hset : ((Infos.set b k v).map (·.1)).Nodup := by
      rw [Infos.keys_set]
      split
      · exact hb
      · rename_i hk
        rw [List.nodup_append]
        exact ⟨hb, by simp, by intro a ha c hc; simp at hc; subst hc; exact fun e => hk (e ▸ ha)⟩
    simp only [List.foldl_cons]
    rw [ih _ hset hd.2]
    have hlk : lookup k d = none := (lookup_mem k d).2 hd.1
    by_cases hk : k ∈ b.map (·.1)
    · simp only [overlay, Infos.keys_set, if_pos hk]
      rw [List.filter_cons]
      simp only [hk, not_true_eq_false, decide_false, Bool.false_eq_true, if_false]
      congr 1
      clear ih hset
      induction b with
      | nil => simp at hk
      | cons q b ihb =>
        obtain ⟨k', v'⟩ := q
        simp only [List.map_cons, List.nodup_cons] at hb
        by_cases hq : k' = k
        · subst hq
          simp only [Infos.set, if_pos, List.map_cons, hlk, Option.getD_none, lookup, Option.getD_some, List.cons.injEq, true_and]
          apply List.map_congr_left
          intro x hx
          have : ¬ k' = x.1 := fun e => hb.1 (e ▸ List.mem_map_of_mem (f := (·.1)) hx)
          simp [this]
        · have hk' : k ∈ b.map (·.1) := by
            rcases List.mem_cons.1 hk with h | h
            · exact absurd h.symm hq
            · exact h
          have hq' : ¬ k = k' := fun e => hq e.symm
          simp only [Infos.set, if_neg hq, List.map_cons, lookup, if_neg hq', List.cons.injEq, true_and]
          have := ihb hb.2 hk'
          simpa [lookup] using this
    · rw [Infos.set_of_not_mem _ _ _ hk]
      simp only [overlay, List.map_append, List.map_cons, List.map_nil, List.filter_cons, hk, not_false_eq_true, decide_true,
        if_true, hlk, Option.getD_none, List.append_assoc, List.cons_append, List.nil_append]
      congr 1
      · apply List.map_congr_left
        intro x hx
        have : ¬ k = x.1 := fun e => hk (e ▸ List.mem_map_of_mem (f := (·.1)) hx)
        simp [lookup, this]
      · congr 1
        apply List.filter_congr
        intro x hx
        have : x.1 ≠ k := fun e => hd.1 (e ▸ List.mem_map_of_mem (f := (·.1)) hx)
        simp [this]

theorem overlay_nodup (b d : List (Bytes × Elem)) (hb : (b.map (·.1)).Nodup) (hd : (d.map (·.1)).Nodup) : ((overlay b d).map (·.1)).Nodup := by
  simp only [overlay, List.map_append, List.map_map]
  rw [List.nodup_append]
  refine ⟨?_, ?_, ?_⟩
  · have : ((fun x : Bytes × Elem => x.1) ∘ fun p : Bytes × Elem => (p.1, (lookup p.1 d).getD p.2)) = fun p => p.1 := rfl
    rw [this]; exact hb
  · exact (List.Sublist.map _ List.filter_sublist).nodup hd
  · intro a ha c hc e
    subst e
    simp only [List.mem_map, Function.comp, List.mem_filter, decide_eq_true_eq] at ha hc
    obtain ⟨p, hp, rfl⟩ := ha
    obtain ⟨q, ⟨hq, hn⟩, he⟩ := hc
    exact hn ⟨p, hp, he.symm⟩

/-! ## The merger -/

theorem valueMerge_meta (t a r : Elem) (h : valueMerge t a = some r) :
    r.name = t.name ∧ r.metas = t.metas ∧ r.attributes = t.attributes ∧ (t.kind = a.kind → r.kind = t.kind) := by
  obtain ⟨n, m, at', hh, d⟩ := t
  obtain ⟨n2, m2, a2, h2, d2⟩ := a
  cases d <;> cases d2 <;> simp only [valueMerge, Elem.data, Elem.has] at h
  case object.object es ms =>
    by_cases he : ms.isEmpty = true
    · rw [if_pos he] at h; simp at h; subst h; simp [Elem.name, Elem.metas, Elem.attributes]
    · rw [if_neg he] at h
      obtain ⟨r', _, hr⟩ := Option.map_eq_some_iff.1 h
      subst hr
      simp [Elem.setData, Elem.name, Elem.metas, Elem.attributes, Elem.kind, Elem.data, Data.kind]
  case array.array es ms =>
    cases hh <;> simp at h <;> subst h <;> simp [Elem.setData, Elem.name, Elem.metas, Elem.attributes, Elem.kind, Elem.data, Data.kind]
  all_goals
    simp at h; subst h
    simp [Elem.setData, Elem.name, Elem.metas, Elem.attributes, Elem.kind, Elem.data, Data.kind]

theorem elementMerge_meta (t a r : Elem) (h : elementMerge t a = some r) (hk : t.kind = a.kind) :
    r.name = t.name ∧ r.kind = t.kind ∧ r.metas = infoMerge skipMetaKeywords t.metas a.metas ∧
    (t.kind ≠ .enum → r.attributes = infoMerge (fun _ => false) t.attributes a.attributes) := by
  obtain ⟨n, m, at', hh, d⟩ := t
  unfold elementMerge at h
  simp only at h
  split at h
  · rename_i hkind
    cases he : enumerationsMerge (infoMerge (fun x => x == str "enumerations") (Elem.mk n m at' hh d).attributes a.attributes) a.attributes with
    | none => simp [he] at h
    | some attrs =>
      simp only [he, Option.bind_some] at h
      split at h
      · have := valueMerge_meta _ _ _ h
        refine ⟨this.1, this.2.2.2 hk, this.2.1, fun hne => absurd hkind hne⟩
      · simp at h; subst h; exact ⟨rfl, rfl, rfl, fun hne => absurd hkind hne⟩
  · split at h
    · have := valueMerge_meta _ _ _ h
      exact ⟨this.1, this.2.2.2 hk, this.2.1, fun _ => this.2.2.1⟩
    · simp at h; subst h; exact ⟨rfl, rfl, rfl, fun _ => rfl⟩

theorem mergerLoop_some (es : List Elem) : ∀ (t : Elem) (res : Option Elem), mergerLoop (some t) es = .ok res →
    ∃ r, res = some r ∧ r.name = t.name ∧ r.kind = t.kind ∧ (∀ e ∈ es, e.kind = t.kind) ∧
      r.metas = es.foldl (fun m e => infoMerge skipMetaKeywords m e.metas) t.metas ∧
      (t.kind ≠ .enum → r.attributes = es.foldl (fun m e => infoMerge (fun _ => false) m e.attributes) t.attributes) := by
  induction es with
  | nil => intro t res h; simp [mergerLoop] at h; subst h; exact ⟨t, rfl, rfl, rfl, by simp, rfl, fun _ => rfl⟩
  | cons e es ih =>
    intro t res h
    simp only [mergerLoop, mergerStep] at h
    by_cases hk : e.kind = t.kind
    · rw [if_neg (by simpa using hk)] at h
      by_cases hm : mergeable t.kind = true
      · rw [if_pos hm] at h
        cases hem : elementMerge t e with
        | none => simp [hem] at h
        | some t' =>
          simp only [hem] at h
          obtain ⟨a1, a2, a3, a4⟩ := elementMerge_meta t e t' hem hk.symm
          obtain ⟨r, b1, b2, b3, b4, b5, b6⟩ := ih t' res h
          refine ⟨r, b1, b2.trans a1, b3.trans a2, ?_, ?_, ?_⟩
          · intro x hx
            rcases List.mem_cons.1 hx with rfl | hx
            · exact hk
            · rw [b4 x hx, a2]
          · rw [b5, a3]; rfl
          · intro hne; rw [b6 (by rw [a2]; exact hne), a4 hne]; rfl
      · rw [if_neg hm] at h; simp at h
    · rw [if_pos (by simpa using hk)] at h; simp at h

theorem infoMerge_find (skip : Bytes → Bool) (s : Infos) (k : Bytes) : ∀ t : Infos,
    Infos.find (infoMerge skip t s) k = if skip k then Infos.find t k else (lookup k s.reverse).or (Infos.find t k) := by
  induction s with
  | nil => intro t; simp [infoMerge, lookup]
  | cons p s ih =>
    intro t
    have hcons : infoMerge skip t (p :: s) = infoMerge skip (if skip p.1 then t else Infos.set t p.1 p.2) s := rfl
    have hla : ∀ (a b : List (Bytes × Elem)), lookup k (a ++ b) = (lookup k a).or (lookup k b) := by
      intro a b
      induction a with
      | nil => simp [lookup]
      | cons q r ihr =>
        obtain ⟨k', v⟩ := q
        simp only [List.cons_append, lookup]
        split
        · simp
        · exact ihr
    obtain ⟨k1, v1⟩ := p
    rw [hcons, ih, List.reverse_cons, hla]
    by_cases hs : skip k = true
    · simp only [hs, if_true]
      by_cases hs1 : skip k1 = true
      · simp [hs1]
      · have : ¬ k = k1 := fun e => hs1 (e ▸ hs)
        simp [hs1, Infos.find_set, this]
    · simp only [hs, Bool.false_eq_true, if_false, Option.or_assoc]
      congr 1
      by_cases hk : k1 = k
      · subst hk
        simp [hs, Infos.find_set, lookup]
      · have : ¬ k = k1 := fun e => hk e.symm
        by_cases hs1 : skip k1 = true
        · simp [hs1, lookup, hk]
        · simp [hs1, Infos.find_set, this, lookup, hk]

end Verif.Refract
