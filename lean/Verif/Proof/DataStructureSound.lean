import Verif.Proof.DataStructureMember
import Verif.Proof.Expand
/-!
# From MSON to API Elements (the elements that are made are well formed)
-/
namespace Verif.DataStructure
open Verif Verif.Refract Verif.Registry Verif.Spec Verif.Spec.DataStructure
open Verif.NamedTypes (BaseName TypeName)
open Verif.Mson (Value TypeDef TypeSpec ValueDef PropertyName)

theorem noNullI_iff (l : List (Bytes × Elem)) : noNullI l = true ↔ ∀ p ∈ l, noNull p.2 = true := by
  induction l with
  | nil => simp [noNullI]
  | cons p r ih => obtain ⟨k, e⟩ := p; simp [noNullI, noNullP, ih]
theorem noNullL_iff (l : List Elem) : noNullL l = true ↔ ∀ e ∈ l, noNull e = true := by
  induction l with
  | nil => simp [noNullL]
  | cons e r ih => simp [noNullL, ih]

theorem mem_set (m : Infos) (k : Bytes) (v : Elem) (p : Bytes × Elem) (h : p ∈ Infos.set m k v) : p ∈ m ∨ p.2 = v := by
  induction m with
  | nil => simp only [Infos.set, List.mem_singleton] at h; exact .inr (by rw [h])
  | cons q r ih =>
    obtain ⟨k', e'⟩ := q
    simp only [Infos.set] at h
    split at h
    · rcases List.mem_cons.1 h with h | h
      · exact .inr (by rw [h])
      · exact .inl (by simp [h])
    · rcases List.mem_cons.1 h with h | h
      · exact .inl (by simp [h])
      · rcases ih h with h | h
        · exact .inl (by simp [h])
        · exact .inr h

/-- The elements that a conversion makes: no enumeration is filled with nothing, the attributes have different names, and the flags are a
    list. -/
structure Sound (e : Elem) : Prop where
  noNull : noNull e = true
  metas : (e.metas.map (·.1)).Nodup
  attributes : (e.attributes.map (·.1)).Nodup
  flags : ∀ x, Infos.find e.attributes (str "typeAttributes") = some x → ∃ es, x = list es

theorem keys_set_nodup (m : Infos) (k : Bytes) (v : Elem) (h : (m.map (·.1)).Nodup) : ((Infos.set m k v).map (·.1)).Nodup := by
  rw [Infos.keys_set]
  split
  · exact h
  · rename_i hk
    rw [List.nodup_append]
    refine ⟨h, by simp, ?_⟩
    intro a ha b hb
    simp only [List.mem_singleton] at hb
    subst hb
    rintro rfl
    exact hk ha

theorem sound_setAttr (k : Bytes) (v e : Elem) (he : Sound e) (hv : noNull v = true) (hf : k = str "typeAttributes" → ∃ es, v = list es) :
    Sound (setAttr k v e) := by
  cases e with
  | mk n m a h d =>
    have hn := he.noNull
    simp only [noNull, Bool.and_eq_true] at hn
    refine ⟨?_, he.metas, keys_set_nodup _ _ _ he.attributes, ?_⟩
    · simp only [setAttr, Elem.setAttributes, noNull, Bool.and_eq_true, Elem.attributes]
      refine ⟨⟨hn.1.1, ?_⟩, hn.2⟩
      rw [noNullI_iff]
      intro p hp
      rcases mem_set _ _ _ _ hp with hp | hp
      · exact (noNullI_iff a).1 hn.1.2 p hp
      · rw [hp]; exact hv
    · intro x hx
      rw [find_setAttr] at hx
      split at hx
      · rename_i hk; cases hx; exact hf hk.symm
      · exact he.flags x hx

theorem sound_setMeta (k : Bytes) (v e : Elem) (he : Sound e) (hv : noNull v = true) : Sound (setMeta k v e) := by
  cases e with
  | mk n m a h d =>
    have hn := he.noNull
    simp only [noNull, Bool.and_eq_true] at hn
    refine ⟨?_, keys_set_nodup _ _ _ he.metas, he.attributes, he.flags⟩
    simp only [setMeta, Elem.setMetas, noNull, Bool.and_eq_true, Elem.metas]
    refine ⟨⟨?_, hn.1.2⟩, hn.2⟩
    rw [noNullI_iff]
    intro p hp
    rcases mem_set _ _ _ _ hp with hp | hp
    · exact (noNullI_iff m).1 hn.1.1 p hp
    · rw [hp]; exact hv

theorem sound_setName (n : Bytes) (e : Elem) (he : Sound e) : Sound (e.setName n) := by
  cases e with
  | mk n' m a h d => exact ⟨by have := he.noNull; simpa [Elem.setName, noNull] using this, he.metas, he.attributes, he.flags⟩
theorem sound_setData (d : Data) (e : Elem) (he : Sound e) (hd : noNullD d = true) : Sound (e.setData d) := by
  cases e with
  | mk n' m a h d' =>
    refine ⟨?_, he.metas, he.attributes, he.flags⟩
    have := he.noNull
    simp only [noNull, Bool.and_eq_true, Elem.setData] at this ⊢
    exact ⟨this.1, by simp [hd]⟩
theorem sound_makeEmpty (k : Kind) : Sound (makeEmpty k) :=
  ⟨by simp [makeEmpty, noNull, noNullI], by simp [makeEmpty, Elem.metas], by simp [makeEmpty, Elem.attributes], by
    intro x hx; simp [makeEmpty, Elem.attributes, Infos.find] at hx⟩
theorem sound_makeElement (d : Data) (hd : noNullD d = true) : Sound (makeElement d) :=
  ⟨by simp [makeElement, noNull, noNullI, hd], by simp [makeElement, Elem.metas], by simp [makeElement, Elem.attributes], by
    intro x hx; simp [makeElement, Elem.attributes, Infos.find] at hx⟩
theorem sound_strE (s : Bytes) : Sound (strE s) := sound_makeElement _ rfl

theorem noNull_sourceMapE (m : SourceMap) : noNull (sourceMapE m) = true := by
  refine (sound_makeElement _ ?_).noNull
  simp only [noNullD, noNullL_iff, List.mem_singleton]
  intro e he
  subst he
  refine (sound_setName _ _ (sound_makeElement _ ?_)).noNull
  simp only [noNullD, noNullL_iff, List.mem_map]
  rintro e ⟨x, _, rfl⟩
  refine (sound_makeElement _ ?_).noNull
  simp only [noNullD, noNullL_iff]
  intro y hy
  simp only [List.mem_cons, List.not_mem_nil, or_false] at hy
  rcases hy with rfl | rfl <;> exact (sound_makeElement _ rfl).noNull

theorem sound_attach (m : SourceMap) (e : Elem) (he : Sound e) : Sound (attach m e) := by
  unfold attach
  split
  · exact he
  · exact sound_setAttr _ _ _ he (noNull_sourceMapE m) (fun h => absurd h (by decide))
theorem sound_setType (t : TypeDef) (e : Elem) (he : Sound e) : Sound (setType t e) := by
  unfold setType; split
  · exact he
  · exact sound_setName _ _ he

theorem noNull_list (l : List Elem) (h : ∀ x ∈ l, Sound x) : noNull (list l) = true := by
  simp only [list, noNull, noNullI, noNullD, Bool.and_true, Bool.true_and, Bool.not_true, Bool.false_or, noNullL_iff]
  exact fun x hx => (h x hx).noNull

theorem sound_setTypeAttributes (bits : Nat) (e : Elem) (he : Sound e) : Sound (setTypeAttributes bits e) := by
  unfold setTypeAttributes
  rw [typeAttributes_eq]
  split
  · exact he
  · rename_i x hx
    unfold listed at hx
    split at hx
    · cases hx
    · cases hx
      refine sound_setAttr _ _ _ he (noNull_list _ ?_) (fun _ => ⟨_, rfl⟩)
      intro x hx
      obtain ⟨s, _, rfl⟩ := List.mem_map.1 hx
      exact sound_strE s
theorem sound_setDescription (l : List (Bytes × SourceMap)) (e : Elem) (he : Sound e) : Sound (setDescription l e) := by
  unfold setDescription
  split
  · exact he
  · rename_i x hx
    unfold descriptionE at hx
    simp only at hx
    split at hx
    · cases hx
    · cases hx; exact sound_setMeta _ _ _ he (sound_attach _ _ (sound_strE _)).noNull

theorem sound_create (t : Option BaseName) (s : Bytes) (m : Method) : Sound (create t s m) := by
  have hl : ∀ b, noNullD (literalTo b s).2 = true := by
    intro b; cases b <;> simp only [literalTo] <;> (try split) <;> rfl
  unfold create
  simp only
  split
  · split
    · exact sound_makeEmpty _
    · split
      · refine sound_setAttr _ _ _ (sound_makeEmpty _) ?_ (fun h => absurd h (by decide))
        split
        · refine noNull_list [_] ?_
          intro x hx; simp only [List.mem_singleton] at hx; subst hx; exact sound_makeElement _ (hl _)
        · exact (sound_makeEmpty _).noNull
      · split
        · exact sound_makeElement _ (hl _)
        · exact sound_makeEmpty _
      · exact sound_setName _ _ (sound_makeEmpty _)
  · split
    · exact sound_setName _ _ (sound_strE _)
    · split
      · exact sound_makeEmpty _
      · exact sound_setName _ _ (sound_makeEmpty _)

theorem sound_flags_noNull (e : Elem) (he : Sound e) (es : List Elem) (h : Infos.find e.attributes (str "typeAttributes") = some (list es)) :
    ∀ x ∈ es, noNull x = true := by
  cases e with
  | mk n m a hh d =>
    have := he.noNull
    simp only [noNull, Bool.and_eq_true] at this
    have hm := (noNullI_iff a).1 this.1.2
    simp only [Elem.attributes, Infos.find, Option.map_eq_some_iff] at h
    obtain ⟨p, hp, hp2⟩ := h
    have := hm p (List.mem_of_find?_eq_some hp)
    rw [hp2] at this
    simp only [list, noNull, noNullI, noNullD, Bool.and_true, Bool.true_and, Bool.not_true, Bool.false_or, noNullL_iff] at this
    exact this

theorem sound_setFixed (e : Elem) (he : Sound e) : Sound (setFixed e) := by
  unfold setFixed
  split
  · refine sound_setAttr _ _ _ he (noNull_list [_] ?_) (fun _ => ⟨_, rfl⟩)
    intro x hx; simp only [List.mem_singleton] at hx; subst hx; exact sound_strE _
  · rename_i t ht
    obtain ⟨es, rfl⟩ := he.flags t ht
    simp only [list]
    split
    · exact he
    · refine sound_setAttr _ _ _ he ?_ (fun _ => ⟨_, rfl⟩)
      simp only [noNull, noNullI, noNullD, Bool.and_true, Bool.true_and, Bool.not_true, Bool.false_or, noNullL_iff, List.mem_append, List.mem_singleton]
      rintro x (hx | hx)
      · exact sound_flags_noNull e he es ht x hx
      · subst hx; exact (sound_strE _).noNull

theorem appendFixed_sound (e : Elem) (he : Sound e) : appendFixed e = some (setFixed e) := by
  unfold appendFixed setFixed
  split
  · rfl
  · rename_i t ht
    obtain ⟨es, rfl⟩ := he.flags t ht
    simp only [list, Bool.true_eq_false, if_false]
    split <;> rfl

theorem sound_entryE (t : BaseName) (e : Elem) (he : Sound e) : Sound (entryE t e) := by
  unfold entryE; split
  · split
    · exact sound_setFixed e he
    · exact he
  · exact he

/-! ## Parts -/

def PartsSound (d : Parts) : Prop :=
  (∀ x ∈ merged d.inlines, Sound x) ∧ (∀ x ∈ merged d.values, Sound x) ∧ (∀ x ∈ merged d.defaults, Sound x) ∧ (∀ x ∈ merged d.samples, Sound x) ∧
    ∀ x ∈ merged d.hints, Sound x

theorem merged_append (a b : List Info) : merged (a ++ b) = merged a ++ merged b := by simp [merged]

theorem partsSound_empty : PartsSound {} := by simp [PartsSound, merged]

theorem hintOf_sound (r : Reg) (n : TypeName) (l : List Elem) (h : (hintOf r n).result = .ok l) : ∀ x ∈ l, Sound x := by
  unfold hintOf at h
  split at h
  · simp only [W.bind_ok] at h
    obtain ⟨o, _, h⟩ := h
    split at h
    · simp only [W.bind_ok, W.pure_result, Except.ok.injEq] at h
      obtain ⟨_, _, rfl⟩ := h
      simp
    · cases h; intro x hx; simp only [List.mem_singleton] at hx; subst hx; exact sound_create _ _ _
  · cases h; intro x hx; simp only [List.mem_singleton] at hx; subst hx; exact sound_create _ _ _

theorem each_sound (r : Reg) (ns : List TypeName) (ls : List (List Elem)) (h : (W.each (hintOf r) ns).result = .ok ls) :
    ∀ x ∈ ls.flatten, Sound x := by
  rw [W.each_ok] at h
  induction h with
  | nil => simp
  | cons h1 _ ih =>
    intro x hx
    rw [List.flatten_cons, List.mem_append] at hx
    rcases hx with hx | hx
    · exact hintOf_sound r _ _ h1 x hx
    · exact ih x hx

theorem addHints_sound (r : Reg) (t : BaseName) (ty : TypeDef) (d d' : Parts) (hd : PartsSound d) (h : (addHints r t ty d).result = .ok d') : PartsSound d' := by
  rcases addHints_ok r t ty d d' h with ⟨_, rfl⟩ | ⟨_, ls, hls, rfl⟩
  · exact hd
  · refine ⟨hd.1, hd.2.1, hd.2.2.1, hd.2.2.2.1, ?_⟩
    intro x hx
    rw [merged_append, List.mem_append] at hx
    rcases hx with hx | hx
    · exact hd.2.2.2.2 x hx
    · simp only [merged, List.flatMap_cons, List.flatMap_nil, List.append_nil] at hx
      exact each_sound r _ ls hls x hx

theorem lineInfo_sound (t : BaseName) (v : ValueDef) (m : SourceMap) : ∀ x ∈ (lineInfo t v m).elements, Sound x := by
  unfold lineInfo
  split
  · simp
  · simp only [List.mem_map]
    rintro x ⟨y, _, rfl⟩
    split
    · split
      · exact sound_setFixed _ (sound_create _ _ _)
      · exact sound_create _ _ _
    · exact sound_create _ _ _

theorem lineInfos_sound (t : BaseName) (v : ValueDef) (m : SourceMap) (u : Use) : ∀ x ∈ merged (lineInfos t v m u), Sound x := by
  unfold lineInfos
  split
  · simpa [merged] using lineInfo_sound t v m
  · simp [merged]

theorem extractValue_sound (r : Reg) (t : BaseName) (de : Bytes) (v : ValueDef) (dm cm : SourceMap) (d : Parts)
    (h : (extractValue r t de v dm cm).result = .ok d) : PartsSound d := by
  have hl := extractValue_ok r t de v dm cm d h
  refine ⟨by rw [hl.1]; exact lineInfos_sound _ _ _ _, by rw [hl.2.2.2.1]; simp [merged], by rw [hl.2.2.1]; exact lineInfos_sound _ _ _ _,
    by rw [hl.2.1]; exact lineInfos_sound _ _ _ _, ?_⟩
  by_cases hp : Primitive t
  · rw [(hl.2.2.2.2.2.1 hp).1]; simp [merged]
  · obtain ⟨ls, hls, hm⟩ := hl.2.2.2.2.2.2 hp
    rw [hm]; exact each_sound r _ ls hls

/-! ## The element of a type -/

theorem container_noNull (t : BaseName) (l : List Elem) (h : ∀ x ∈ l, Sound x) : noNullD (container t l) = true := by
  unfold container
  split
  · simp only [noNullD, noNullL_iff]
    intro x hx
    rcases Expand.pushAll_mem l [] x hx with hx | hx
    · simp at hx
    · exact (h x hx).noNull
  · simp only [noNullD, noNullL_iff]; exact fun x hx => (h x hx).noNull

theorem literalTo_noNull (t : BaseName) (s : Bytes) : noNullD (literalTo t s).2 = true := by
  cases t <;> simp only [literalTo] <;> (try split) <;> rfl

theorem enumSome_noNull (x : Elem) (h : Sound x) : noNullD (.enum (some x)) = true := by simp [noNullD, noNullO, h.noNull]

theorem infoToElement_sound (t : BaseName) (i : Info) (h : ∀ x ∈ i.elements, Sound x) : Sound (infoToElement t i) := by
  unfold infoToElement
  split
  · split
    · exact sound_makeElement _ (literalTo_noNull _ _)
    · exact sound_makeEmpty _
  · split
    · split
      · exact sound_makeEmpty _
      · rename_i e he
        exact sound_makeElement _ (enumSome_noNull e (h e (by rw [he]; simp)))
      · exact sound_setAttr _ _ _ (sound_makeEmpty _) (noNull_list _ h) (fun a => absurd a (by decide))
    · exact sound_makeElement _ (container_noNull t _ h)

theorem mem_merged {l : List Info} {i : Info} {x : Elem} (hi : i ∈ l) (hx : x ∈ i.elements) : x ∈ merged l := by
  unfold merged; exact List.mem_flatMap.2 ⟨i, hi, hx⟩

theorem saveSamples_sound (t : BaseName) (l : List Info) (e : Elem) (he : Sound e) (hl : ∀ x ∈ merged l, Sound x) : Sound (saveSamples t l e) := by
  unfold saveSamples
  split
  · split
    · exact he
    · refine sound_setAttr _ _ _ he (noNull_list _ ?_) (fun a => absurd a (by decide))
      intro x hx
      obtain ⟨y, hy, rfl⟩ := List.mem_map.1 hx
      exact sound_makeElement _ (enumSome_noNull y (hl y hy))
  · split
    · exact he
    · refine sound_setAttr _ _ _ he (noNull_list _ ?_) (fun a => absurd a (by decide))
      intro x hx
      obtain ⟨y, hy, rfl⟩ := List.mem_map.1 hx
      exact infoToElement_sound t y (fun z hz => hl z (mem_merged hy hz))

theorem saveDefault_sound (t : BaseName) (l : List Info) (e e' : Elem) (he : Sound e) (hl : ∀ x ∈ merged l, Sound x)
    (h : (saveDefault t l e).result = .ok e') : Sound e' := by
  unfold saveDefault at h
  split at h
  · cases h; exact he
  · rename_i last hlast
    split at h
    · rw [W.warn_bind] at h
      cases h
      refine sound_setAttr _ _ _ he ?_ (fun a => absurd a (by decide))
      split
      · exact (sound_makeEmpty _).noNull
      · rename_i x hx; exact (sound_makeElement _ (enumSome_noNull x (hl x (List.mem_of_getLast? hx)))).noNull
    · cases h
      refine sound_setAttr _ _ _ he ?_ (fun a => absurd a (by decide))
      exact (infoToElement_sound t last (fun z hz => hl z (mem_merged (List.mem_of_getLast? hlast) hz))).noNull

theorem addEnumerations_mem (b : Bool) : ∀ (l es es' : List Elem), (addEnumerations b l es).result = .ok es' → ∀ x ∈ es', x ∈ es ∨ x ∈ l
  | [], es, es', h => by
    rw [addEnumerations] at h; cases h; exact fun x hx => .inl hx
  | y :: r, es, es', h => by
    rw [addEnumerations] at h
    simp only [W.bind_ok] at h
    obtain ⟨f, _, h⟩ := h
    split at h
    · simp only [W.bind_ok] at h
      obtain ⟨_, _, h⟩ := h
      intro x hx
      rcases addEnumerations_mem b r es es' h x hx with hx | hx
      · exact .inl hx
      · exact .inr (by simp [hx])
    · intro x hx
      rcases addEnumerations_mem b r _ es' h x hx with hx | hx
      · rcases List.mem_append.1 hx with hx | hx
        · exact .inl hx
        · exact .inr (by simp only [List.mem_singleton] at hx; simp [hx])
      · exact .inr (by simp [hx])

theorem withoutValues_mem (vs : List Elem) : ∀ (l l' : List Elem), (withoutValues vs l).result = .ok l' → ∀ x ∈ l', x ∈ l
  | [], l', h => by rw [withoutValues] at h; cases h; exact fun x hx => hx
  | y :: r, l', h => by
    rw [withoutValues] at h
    simp only [W.bind_ok, W.pure_result, Except.ok.injEq] at h
    obtain ⟨f, _, l'', h'', rfl⟩ := h
    intro x hx
    split at hx
    · exact List.mem_cons_of_mem _ (withoutValues_mem vs r l'' h'' x hx)
    · rcases List.mem_cons.1 hx with rfl | hx
      · simp
      · exact List.mem_cons_of_mem _ (withoutValues_mem vs r l'' h'' x hx)

theorem onlyValue_mem (l : List Info) (x : Elem) (h : onlyValue l = some x) : x ∈ merged l := by
  unfold onlyValue at h
  cases l with
  | nil => simp at h
  | cons i r =>
    simp only [List.head?_cons] at h
    split at h
    · rename_i e he
      split at h
      · cases h; exact mem_merged (List.mem_cons_self ..) (by rw [he]; simp)
      · cases h
    · cases h

/-- The entries of an enumeration after the gathering. -/
theorem flag_each (es es' : List Elem) (hs : ∀ x ∈ es, Sound x)
    (h : (W.each (fun x => if isLiteral x then W.defined (appendFixed x) else W.pure x) es).result = .ok es') : es' = es.map (entryE .enum) := by
  rw [W.each_ok] at h
  induction h with
  | nil => rfl
  | @cons a b l l' h1 _ ih =>
    rw [List.map_cons, ih (fun x hx => hs x (by simp [hx]))]
    congr 1
    unfold entryE
    rw [if_pos rfl]
    split at h1
    · rename_i hl
      rw [if_pos hl]
      rw [W.defined_ok, appendFixed_sound _ (hs _ (by simp))] at h1
      exact (Option.some.inj h1).symm
    · rename_i hl
      rw [if_neg hl]; cases h1; rfl

theorem saveEnum_sound (d : Parts) (e e' : Elem) (he : Sound e) (hd : PartsSound d) (h : (saveEnum d e).result = .ok e') : Sound e' := by
  unfold saveEnum at h
  simp only [W.bind_ok, cloneAll_id] at h
  obtain ⟨l0, h0, l1, h1, l2, h2, l3, h3, l4, h4, l5, h5, h⟩ := h
  have he1 : Sound (match onlyValue d.inlines with
      | some c => e.setData (.enum (some c))
      | none => match onlyValue d.values with
        | some c => e.setData (.enum (some c))
        | none => e) := by
    split
    · rename_i c hc; exact sound_setData _ _ he (enumSome_noNull c (hd.1 c (onlyValue_mem _ _ hc)))
    · split
      · rename_i c hc; exact sound_setData _ _ he (enumSome_noNull c (hd.2.1 c (onlyValue_mem _ _ hc)))
      · exact he
  have hs : ∀ x ∈ l5, Sound x := by
    intro x hx
    have clone : ∀ l : List Elem, l.map cloneAll = l := by
      intro l; induction l with
      | nil => rfl
      | cons a r ih => rw [List.map_cons, cloneAll_id, ih]
    rcases addEnumerations_mem _ _ _ _ h5 x hx with hx | hx
    · rcases addEnumerations_mem _ _ _ _ h4 x hx with hx | hx
      · rcases addEnumerations_mem _ _ _ _ h3 x hx with hx | hx
        · rcases addEnumerations_mem _ _ _ _ h2 x hx with hx | hx
          · rcases addEnumerations_mem _ _ _ _ h1 x hx with hx | hx
            · simp at hx
            · exact hd.1 x (withoutValues_mem _ _ _ h0 x hx)
          · exact hd.2.1 x hx
        · exact hd.2.2.2.1 x (by simpa [clone, List.map_id'] using hx)
      · exact hd.2.2.1 x (by simpa [clone, List.map_id'] using hx)
    · exact hd.2.2.2.2 x hx
  split at h
  · cases h; exact he1
  · simp only [W.bind_ok, W.pure_result, Except.ok.injEq] at h
    obtain ⟨l6, h6, rfl⟩ := h
    rw [flag_each l5 l6 hs h6]
    refine sound_setAttr _ _ _ he1 ?_ (fun a => absurd a (by decide))
    refine noNull_list _ ?_
    intro x hx
    rw [List.map_map, List.mem_map] at hx
    obtain ⟨y, hy, rfl⟩ := hx
    rw [Function.comp, cloneAll_id]
    exact sound_entryE _ _ (hs y hy)

theorem dataToElement_sound (t : BaseName) (d : Parts) (e e' : Elem) (he : Sound e) (hd : PartsSound d) (h : (dataToElement t d e).result = .ok e') : Sound e' := by
  unfold dataToElement at h
  rw [W.warn_bind] at h
  simp only [W.bind_ok] at h
  obtain ⟨e1, h1, h2⟩ := h
  refine saveDefault_sound t d.defaults _ e' (saveSamples_sound t d.samples e1 ?_ hd.2.2.2.1) hd.2.2.1 h2
  split at h1
  · exact saveEnum_sound d e e1 he hd h1
  · cases h1
    split
    · unfold savePrimitive
      split
      · exact he
      · exact sound_attach _ _ (sound_setData _ _ he (literalTo_noNull _ _))
    · unfold saveContainer
      simp only
      split
      · exact he
      · refine sound_setData _ _ he (container_noNull t _ ?_)
        intro x hx
        simp only [List.mem_append] at hx
        rcases hx with (hx | hx) | hx
        · exact hd.2.2.2.2 x hx
        · exact hd.1 x hx
        · exact hd.2.1 x hx

/-! ## Members -/

theorem propertyKey_sound (r : Reg) (n : PropertyName) (nm : SourceMap) (k : Elem) (h : (propertyKey r n nm).result = .ok k) : Sound k := by
  unfold propertyKey at h
  simp only [W.bind_ok, W.pure_result, Except.ok.injEq] at h
  obtain ⟨k0, h0, rfl⟩ := h
  refine sound_attach _ _ ?_
  have hk0 : Sound k0 := by
    split at h0
    · cases h0; exact sound_makeEmpty _
    · simp only [W.bind_ok, W.warn_result, W.pure_result, Except.ok.injEq] at h0
      obtain ⟨_, _, k1, h1, rfl⟩ := h0
      have hk1 : Sound k1 := by
        split at h1
        · cases h1; exact sound_makeEmpty _
        · simp only [W.bind_ok] at h1
          obtain ⟨b, _, h1⟩ := h1
          split at h1
          · cases h1; exact sound_setType _ _ (sound_makeEmpty _)
          · cases h1
      split
      · exact sound_setData _ _ hk1 rfl
      · exact hk1
  split
  · exact hk0
  · exact sound_setData _ _ hk0 rfl

theorem memberE_sound (n : PropertyName) (k v : Elem) (hk : Sound k) (hv : Sound v) : Sound (memberE n k v) := by
  have : Sound (makeElement (.member (some k) (some v))) := sound_makeElement _ (by simp [noNullD, noNullO, hk.noNull, hv.noNull])
  unfold memberE
  split
  · exact this
  · exact sound_setAttr _ _ _ this rfl (fun a => absurd a (by decide))

theorem memberWith_sound (r : Reg) (name : Option (PropertyName × SourceMap)) (nested : BaseName) (de : Bytes) (v : ValueDef) (ss : List Section)
    (mp dm cm : SourceMap) (f : BaseName → BaseName → Parts → W Parts) (hf : ∀ t n d d', PartsSound d → (f t n d).result = .ok d' → PartsSound d')
    (o : Option Elem) (h : (memberWith r name nested de v ss mp dm cm f).result = .ok o) : ∀ e, o = some e → Sound e := by
  have hv : ∀ t x, (valueWith r t de v mp dm cm f).result = .ok x → Sound x.1 := by
    intro t x hx
    unfold valueWith at hx
    simp only [W.bind_ok, W.pure_result, Except.ok.injEq] at hx
    obtain ⟨d0, h0, d1, h1, e, he, rfl⟩ := hx
    exact dataToElement_sound t d1 _ e (sound_attach _ _ (sound_setType _ _ (sound_makeEmpty _)))
      (hf _ _ _ _ (extractValue_sound r t de v dm cm d0 h0) h1) he
  unfold memberWith at h
  simp only [W.bind_ok, W.warn_result] at h
  obtain ⟨res, _, _, _, h⟩ := h
  cases name with
  | none =>
    simp only [W.bind_ok, W.pure_result, Except.ok.injEq] at h
    obtain ⟨x, hx, rfl⟩ := h
    intro e he; cases he
    exact sound_setDescription _ _ (sound_setTypeAttributes _ _ (hv _ x hx))
  | some p =>
    simp only [W.bind_ok] at h
    obtain ⟨key, hkey, h⟩ := h
    split at h
    · simp only [W.bind_ok, W.pure_result, Except.ok.injEq] at h
      obtain ⟨x, hx, rfl⟩ := h
      intro e he; cases he
      exact sound_setDescription _ _ (sound_setTypeAttributes _ _ (memberE_sound _ _ _ (propertyKey_sound r _ _ key hkey) (hv _ x hx)))
    · cases h; intro e he; cases he

theorem mixinE_sound (t : TypeDef) : Sound (mixinE t) :=
  sound_setAttr _ _ _ (sound_makeElement _ rfl) (sound_strE _).noNull (fun a => absurd a (by decide))
theorem selectE_sound (l : List Elem) (h : ∀ x ∈ l, Sound x) : Sound (selectE l) := by
  unfold selectE; split
  · exact sound_makeEmpty _
  · exact sound_makeElement _ (by simp only [noNullD, noNullL_iff]; exact fun x hx => (h x hx).noNull)
theorem option_sound (l : List Elem) (h : ∀ x ∈ l, Sound x) : Sound (makeElement (.option l)) :=
  sound_makeElement _ (by simp only [noNullD, noNullL_iff]; exact fun x hx => (h x hx).noNull)

theorem addSection_sound (t : BaseName) (k : Klass) (de v : Bytes) (b : Bool) (dm vm : SourceMap) (content : W (List Elem))
    (hc : ∀ l, content.result = .ok l → ∀ x ∈ l, Sound x) (d d' : Parts) (hd : PartsSound d)
    (h : (addSection t k de v b dm vm content d).result = .ok d') : PartsSound d' := by
  have hi : ∀ i, (fetchSection t v vm content).result = .ok i → ∀ x ∈ i.elements, Sound x := by
    intro i hi
    unfold fetchSection at hi
    split at hi
    · cases hi; simp
    · simp only [W.bind_ok, W.pure_result, Except.ok.injEq] at hi
      obtain ⟨l, hl, rfl⟩ := hi
      simp only
      intro x hx
      split at hx
      · obtain ⟨y, hy, rfl⟩ := List.mem_map.1 hx
        split
        · exact sound_setFixed _ (hc l hl y hy)
        · exact hc l hl y hy
      · exact hc l hl x hx
  have app : ∀ (l : List Info) i, (∀ x ∈ merged l, Sound x) → (∀ x ∈ i.elements, Sound x) → ∀ x ∈ merged (l ++ [i]), Sound x := by
    intro l i h1 h2 x hx
    rw [merged_append, List.mem_append] at hx
    rcases hx with hx | hx
    · exact h1 x hx
    · exact h2 x (by simpa [merged] using hx)
  unfold addSection at h
  cases k with
  | undefined => cases h
  | description => cases h; exact hd
  | members =>
    simp only at h
    split at h
    · cases h; exact hd
    · simp only [W.bind_ok, W.pure_result, Except.ok.injEq] at h
      obtain ⟨i, h1, rfl⟩ := h
      exact ⟨hd.1, app _ _ hd.2.1 (hi i h1), hd.2.2.1, hd.2.2.2.1, hd.2.2.2.2⟩
  | sample =>
    simp only at h
    split at h
    · cases h; exact hd
    · simp only [W.bind_ok, W.pure_result, Except.ok.injEq] at h
      obtain ⟨i, h1, rfl⟩ := h
      exact ⟨hd.1, hd.2.1, hd.2.2.1, app _ _ hd.2.2.2.1 (hi i h1), hd.2.2.2.2⟩
  | default =>
    simp only at h
    split at h
    · cases h; exact hd
    · simp only [W.bind_ok, W.pure_result, Except.ok.injEq] at h
      obtain ⟨i, h1, rfl⟩ := h
      exact ⟨hd.1, hd.2.1, app _ _ hd.2.2.1 (hi i h1), hd.2.2.2.1, hd.2.2.2.2⟩

mutual
theorem convertSections_sound (r : Reg) (t n : BaseName) : (ss : List Section) → ∀ d d', PartsSound d → (convertSections r t n ss d).result = .ok d' → PartsSound d'
  | [], d, d', hd, h => by simp only [convertSections] at h; cases h; exact hd
  | s :: rest, d, d', hd, h => by
    simp only [convertSections, W.bind_ok] at h
    obtain ⟨d1, h1, h2⟩ := h
    exact convertSections_sound r t n rest d1 d' (convertSection_sound r t n s d d1 hd h1) h2
termination_by structural ss => ss
theorem convertSection_sound (r : Reg) (t n : BaseName) : (s : Section) → ∀ d d', PartsSound d → (convertSection r t n s d).result = .ok d' → PartsSound d'
  | .mk k de v es dm vm, d, d', hd, h => by
    simp only [convertSection] at h
    exact addSection_sound t k de v _ dm vm _ (convertElements_sound r n es) d d' hd h
termination_by structural s => s
theorem convertElements_sound (r : Reg) (n : BaseName) : (es : List Element) → ∀ l, (convertElements r n es).result = .ok l → ∀ x ∈ l, Sound x
  | [], l, h => by simp only [convertElements] at h; cases h; simp
  | e :: rest, l, h => by
    simp only [convertElements, W.bind_ok, W.pure_result, Except.ok.injEq] at h
    obtain ⟨o, ho, l', hl', rfl⟩ := h
    intro x hx
    rcases List.mem_append.1 hx with hx | hx
    · exact convertElement_sound r n e o ho x (by simpa using hx)
    · exact convertElements_sound r n rest l' hl' x hx
termination_by structural es => es
theorem convertElement_sound (r : Reg) (n : BaseName) : (e : Element) → ∀ o, (convertElement r n e).result = .ok o → ∀ x, o = some x → Sound x
  | .empty, o, h => by simp only [convertElement] at h; cases h
  | .property name nm m, o, h => by simp only [convertElement] at h; exact convertMember_sound r _ n m o h
  | .value m, o, h => by simp only [convertElement] at h; exact convertMember_sound r _ n m o h
  | .mixin t, o, h => by
    simp only [convertElement] at h; cases h; intro x hx; cases hx; exact mixinE_sound t
  | .oneOf es, o, h => by
    simp only [convertElement, W.bind_ok, W.pure_result, Except.ok.injEq] at h
    obtain ⟨l, hl, rfl⟩ := h
    intro x hx; cases hx
    exact selectE_sound l (convertOptions_sound r es l hl)
  | .group _, o, h => by simp only [convertElement] at h; cases h
termination_by structural e => e
theorem convertMember_sound (r : Reg) (name : Option (PropertyName × SourceMap)) (n : BaseName) : (m : Member) → ∀ o, (convertMember r name n m).result = .ok o → ∀ x, o = some x → Sound x
  | .mk de v ss mp dm cm, o, h => by
    simp only [convertMember] at h
    exact memberWith_sound r name n de v ss mp dm cm _ (fun t n d d' => convertSections_sound r t n ss d d') o h
termination_by structural m => m
theorem convertOptions_sound (r : Reg) : (es : List Element) → ∀ l, (convertOptions r es).result = .ok l → ∀ x ∈ l, Sound x
  | [], l, h => by simp only [convertOptions] at h; cases h; simp
  | e :: rest, l, h => by
    simp only [convertOptions, W.bind_ok, W.pure_result, Except.ok.injEq] at h
    obtain ⟨o, ho, l', hl', rfl⟩ := h
    intro x hx
    rcases List.mem_cons.1 hx with rfl | hx
    · exact convertOption_sound r e x ho
    · exact convertOptions_sound r rest l' hl' x hx
termination_by structural es => es
theorem convertOption_sound (r : Reg) : (e : Element) → ∀ x, (convertOption r e).result = .ok x → Sound x
  | .empty, x, h => by simp only [convertOption] at h; cases h
  | .property name nm m, x, h => by
    simp only [convertOption, W.bind_ok, W.pure_result, Except.ok.injEq] at h
    obtain ⟨o, ho, rfl⟩ := h
    exact option_sound _ (fun y hy => convertMember_sound r _ .string m o ho y (by simpa using hy))
  | .value m, x, h => by
    simp only [convertOption, W.bind_ok, W.pure_result, Except.ok.injEq] at h
    obtain ⟨o, ho, rfl⟩ := h
    exact option_sound _ (fun y hy => convertMember_sound r _ .string m o ho y (by simpa using hy))
  | .mixin t, x, h => by
    simp only [convertOption] at h; cases h
    refine option_sound _ (fun y hy => ?_)
    simp only [Option.toList_some, List.mem_singleton] at hy; subst hy; exact mixinE_sound t
  | .oneOf es, x, h => by
    simp only [convertOption, W.bind_ok, W.pure_result, Except.ok.injEq] at h
    obtain ⟨l, hl, rfl⟩ := h
    refine option_sound _ (fun y hy => ?_)
    simp only [Option.toList_some, List.mem_singleton] at hy; subst hy
    exact selectE_sound l (convertOptions_sound r es l hl)
  | .group es, x, h => by
    simp only [convertOption, W.bind_ok, W.pure_result, Except.ok.injEq] at h
    obtain ⟨l, hl, rfl⟩ := h
    exact option_sound l (convertElements_sound r .string es l hl)
termination_by structural e => e
end

end Verif.DataStructure
