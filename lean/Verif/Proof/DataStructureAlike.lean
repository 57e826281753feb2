import Verif.Proof.DataStructureSound
import Verif.Props.C23_C25
/-!
# From MSON to API Elements (the comparison of entries of an enumeration)
-/
namespace Verif.DataStructure
open Verif Verif.Refract Verif.Registry Verif.Spec Verif.Spec.DataStructure
open Verif.NamedTypes (BaseName TypeName)
open Verif.Mson (Value TypeDef TypeSpec ValueDef PropertyName)

/-! ## The order of the keys -/

theorem bytesLt_trans : ∀ a b c : Bytes, bytesLt a b = true → bytesLt b c = true → bytesLt a c = true
  | _, [], _, h, _ => by simp [bytesLt] at h
  | _, _ :: _, [], _, h => by simp [bytesLt] at h
  | [], _ :: _, _ :: _, _, _ => by simp [bytesLt]
  | x :: a, y :: b, z :: c, h, h' => by
    simp only [bytesLt, Bool.or_eq_true, decide_eq_true_eq, Bool.and_eq_true, beq_iff_eq] at h h' ⊢
    rcases h with h | ⟨rfl, h⟩ <;> rcases h' with h' | ⟨rfl, h'⟩
    · exact .inl (UInt8.lt_trans h h')
    · exact .inl h
    · exact .inl h'
    · exact .inr ⟨rfl, bytesLt_trans a b c h h'⟩

theorem bytesLt_total : ∀ a b : Bytes, a ≠ b → bytesLt a b = true ∨ bytesLt b a = true
  | [], [], h => absurd rfl h
  | [], _ :: _, _ => by simp [bytesLt]
  | _ :: _, [], _ => by simp [bytesLt]
  | x :: a, y :: b, h => by
    simp only [bytesLt, Bool.or_eq_true, decide_eq_true_eq, Bool.and_eq_true, beq_iff_eq]
    by_cases hxy : x = y
    · subst hxy
      rcases bytesLt_total a b (fun hab => h (by rw [hab])) with h | h
      · exact .inl (.inr ⟨rfl, h⟩)
      · exact .inr (.inr ⟨rfl, h⟩)
    · rcases UInt8.lt_or_lt_of_ne hxy with h | h
      · exact .inl (.inl h)
      · exact .inr (.inl h)

/-! ## Sorting -/

def Before (p q : Bytes × Elem) : Prop := bytesLt p.1 q.1 = true

theorem insertInfo_perm (p : Bytes × Elem) (l : Infos) : (insertInfo p l).Perm (p :: l) := by
  induction l with
  | nil => exact .refl _
  | cons q r ih =>
    simp only [insertInfo]
    split
    · exact .refl _
    · exact (ih.cons q).trans (.swap p q r)

theorem insertInfo_sorted (p : Bytes × Elem) (l : Infos) (h : l.Pairwise Before) (hp : ∀ q ∈ l, q.1 ≠ p.1) : (insertInfo p l).Pairwise Before := by
  induction l with
  | nil => simp [insertInfo]
  | cons q r ih =>
    rw [List.pairwise_cons] at h
    simp only [insertInfo]
    split
    · rename_i hlt
      rw [List.pairwise_cons]
      refine ⟨?_, List.pairwise_cons.2 h⟩
      intro x hx
      rcases List.mem_cons.1 hx with rfl | hx
      · exact hlt
      · exact bytesLt_trans _ _ _ hlt (h.1 x hx)
    · rename_i hlt
      rw [List.pairwise_cons]
      refine ⟨?_, ih h.2 (fun x hx => hp x (by simp [hx]))⟩
      intro x hx
      rcases List.mem_cons.1 ((insertInfo_perm p r).mem_iff.1 hx) with rfl | hx
      · rcases bytesLt_total q.1 x.1 (hp q (by simp)) with h1 | h1
        · exact h1
        · exact absurd h1 hlt
      · exact h.1 x hx

theorem sorted_perm (l : Infos) : (l.foldr insertInfo []).Perm l := by
  induction l with
  | nil => exact .refl _
  | cons p r ih => exact (insertInfo_perm p _).trans (ih.cons p)

theorem sorted_sorted (l : Infos) (h : (l.map (·.1)).Nodup) : (l.foldr insertInfo []).Pairwise Before := by
  induction l with
  | nil => simp
  | cons p r ih =>
    rw [List.map_cons, List.nodup_cons] at h
    refine insertInfo_sorted p _ (ih h.2) ?_
    intro q hq he
    exact h.1 (List.mem_map.2 ⟨q, (sorted_perm r).mem_iff.1 hq, he⟩)

theorem mem_iff_find (l : Infos) (h : (l.map (·.1)).Nodup) (k : Bytes) (v : Elem) : (k, v) ∈ l ↔ Infos.find l k = some v := by
  induction l with
  | nil => simp [Infos.find]
  | cons p r ih =>
    obtain ⟨k', v'⟩ := p
    rw [List.map_cons, List.nodup_cons] at h
    have ih := ih h.2
    simp only [Infos.find, List.find?_cons] at ih ⊢
    by_cases hk : k' = k
    · subst hk
      simp only [decide_true, List.mem_cons, Prod.mk.injEq, true_and, Option.map_some, Option.some.injEq]
      constructor
      · rintro (rfl | hm)
        · rfl
        · exact absurd (List.mem_map.2 ⟨_, hm, rfl⟩) h.1
      · intro hv; exact .inl hv.symm
    · simp only [hk, decide_false, List.mem_cons, Prod.mk.injEq]
      rw [← ih]
      constructor
      · rintro (⟨rfl, _⟩ | hm)
        · exact absurd rfl hk
        · exact hm
      · exact fun hm => .inr hm

/-- The list of keys and values without names. -/
theorem anonymousI_map (l : Infos) : anonymousI l = l.map fun p => (p.1, anonymous p.2) := by
  induction l with
  | nil => rfl
  | cons p r ih => obtain ⟨k, e⟩ := p; simp [anonymousI, anonymousP, ih]

theorem find_map_anonymous (l : Infos) (k : Bytes) : Infos.find (l.map fun p => (p.1, anonymous p.2)) k = (Infos.find l k).map anonymous := by
  induction l with
  | nil => rfl
  | cons p r ih =>
    simp only [Infos.find, List.map_cons, List.find?_cons] at ih ⊢
    by_cases hk : p.1 = k
    · simp only [hk, decide_true]; rfl
    · simp only [hk, decide_false]; exact ih

theorem sorted_eq_iff (l l' : Infos) (h : (l.map (·.1)).Nodup) (h' : (l'.map (·.1)).Nodup) :
    anonymousI (l.foldr insertInfo []) = anonymousI (l'.foldr insertInfo []) ↔ ∀ k, Same (Infos.find l k) (Infos.find l' k) := by
  have keys : ∀ l : Infos, (l.map (·.1)).Nodup → ((l.foldr insertInfo []).map (·.1)).Nodup := by
    intro l h; exact ((sorted_perm l).map _).nodup_iff.2 h
  have find : ∀ l : Infos, (l.map (·.1)).Nodup → ∀ k, Infos.find (l.foldr insertInfo []) k = Infos.find l k := by
    intro l h k
    cases hf : Infos.find l k with
    | some v => rw [← mem_iff_find _ (keys l h), (sorted_perm l).mem_iff, mem_iff_find l h]; exact hf
    | none =>
      cases hs : Infos.find (l.foldr insertInfo []) k with
      | none => rfl
      | some v =>
        rw [← mem_iff_find _ (keys l h), (sorted_perm l).mem_iff, mem_iff_find l h, hf] at hs
        cases hs
  rw [anonymousI_map, anonymousI_map]
  constructor
  · intro he k
    unfold Same
    rw [← find l h, ← find l' h', ← find_map_anonymous, ← find_map_anonymous, he]
  · intro hk
    have nk : ∀ l : Infos, (l.map (·.1)).Nodup → (((l.foldr insertInfo []).map fun p => (p.1, anonymous p.2)).map (·.1)).Nodup := by
      intro l h
      rw [List.map_map]
      exact keys l h
    have hperm : ((l.foldr insertInfo []).map fun p => (p.1, anonymous p.2)).Perm ((l'.foldr insertInfo []).map fun p => (p.1, anonymous p.2)) := by
      rw [List.perm_ext_iff_of_nodup (List.Nodup.of_map _ (nk l h)) (List.Nodup.of_map _ (nk l' h'))]
      rintro ⟨k, v⟩
      rw [mem_iff_find _ (nk l h), mem_iff_find _ (nk l' h'), find_map_anonymous, find_map_anonymous, find l h, find l' h', hk k]
    have srt : ∀ l : Infos, (l.map (·.1)).Nodup → ((l.foldr insertInfo []).map fun p => (p.1, anonymous p.2)).Pairwise Before := by
      intro l h
      rw [List.pairwise_map]
      exact sorted_sorted l h
    refine hperm.eq_of_pairwise ?_ (srt l h) (srt l' h')
    intro a b _ _ h1 h2
    unfold Before at h1 h2
    have := Props.bytesLt_asymm _ _ h1
    rw [this] at h2; cases h2

theorem erase_keys (m : Infos) (k : Bytes) (h : (m.map (·.1)).Nodup) : ((Infos.erase m k).map (·.1)).Nodup := by
  rw [Infos.keys_erase]; exact h.filter _

theorem sortedInfos_noNull (k : Bytes) (m : Infos) (h : noNullI m = true) : noNullI (sortedInfos k m) = true := by
  rw [noNullI_iff] at h ⊢
  intro p hp
  have := (sorted_perm _).mem_iff.1 hp
  unfold Infos.erase at this
  exact h p (List.mem_filter.1 this).1

theorem sortedInfos_iff (k : Bytes) (m m' : Infos) (h : (m.map (·.1)).Nodup) (h' : (m'.map (·.1)).Nodup) (n : noNullI m = true) (n' : noNullI m' = true) :
    eqInfos (sortedInfos k m) (sortedInfos k m') ≠ none ∧
    (eqInfos (sortedInfos k m) (sortedInfos k m') = some true ↔ ∀ x, x ≠ k → Same (Infos.find m x) (Infos.find m' x)) := by
  have := eqI_iff _ _ (sortedInfos_noNull k m n) (sortedInfos_noNull k m' n')
  refine ⟨this.1, this.2.trans ?_⟩
  unfold sortedInfos
  rw [sorted_eq_iff _ _ (erase_keys m k h) (erase_keys m' k h')]
  constructor
  · intro hs x hx
    have := hs x
    rwa [Infos.find_erase, Infos.find_erase, if_neg hx, if_neg hx] at this
  · intro hs x
    rw [Infos.find_erase, Infos.find_erase]
    split
    · rfl
    · rename_i hx; exact hs x hx

/-! ## The comparison -/

theorem alike_iff (a b : Elem) (ha : Sound a) (hb : Sound b) :
    (alike a b = some true ↔ Alike a b) ∧ (alike a b = none ↔ AlikeOutside a b ∧ a.has = true ∧ a.kind ≠ b.kind) := by
  have na := ha.noNull
  have nb := hb.noNull
  have nm : ∀ e : Elem, noNull e = true → noNullI e.metas = true ∧ noNullI e.attributes = true ∧ (e.has = true → noNullD e.data = true) := by
    intro e h
    cases e with
    | mk n m at' hh d =>
      simp only [noNull, Bool.and_eq_true, Bool.or_eq_true, Bool.not_eq_true'] at h
      exact ⟨h.1.1, h.1.2, fun hx => by
        rcases h.2 with h2 | h2
        · simp only [Elem.has] at hx; rw [hx] at h2; cases h2
        · exact h2⟩
  have na' := nm a na
  have nb' := nm b nb
  have hm := sortedInfos_iff (str "description") a.metas b.metas ha.metas hb.metas na'.1 nb'.1
  have hat := sortedInfos_iff (str "sourceMap") a.attributes b.attributes ha.attributes hb.attributes na'.2.1 nb'.2.1
  have outside : AlikeOutside a b ↔ a.has = b.has ∧ a.name = b.name ∧ eqInfos (sortedInfos (str "description") a.metas) (sortedInfos (str "description") b.metas) = some true ∧
      eqInfos (sortedInfos (str "sourceMap") a.attributes) (sortedInfos (str "sourceMap") b.attributes) = some true := by
    rw [hm.2, hat.2]
    exact ⟨fun h => ⟨h.has, h.name, h.metas, h.attributes⟩, fun h => ⟨h.1, h.2.1, h.2.2.1, h.2.2.2⟩⟩
  have hemp : (a.empty == b.empty) = true ↔ a.has = b.has := by simp [Elem.empty]
  have hd : a.has = true → a.has = b.has → a.kind = b.kind → (eqData a.data b.data ≠ none ∧ (eqData a.data b.data = some true ↔ anonymousD a.data = anonymousD b.data)) :=
    fun h1 h2 h3 => eqD_iff a.data b.data h3 (na'.2.2 h1) (nb'.2.2 (h2 ▸ h1))
  unfold Alike
  rw [outside]
  unfold alike
  have hnone : ∀ x y : Option Bool, andThen x y = none ↔ x = none ∨ (x = some true ∧ y = none) := by
    intro x y
    rcases x with _ | (_ | _) <;> simp [andThen]
  constructor
  · simp only [andThen_true, Option.some.injEq, hemp, beq_iff_eq]
    constructor
    · rintro ⟨h1, h2, h3, h4, h5⟩
      refine ⟨⟨h1, h2, h3, h4⟩, fun hh => ?_⟩
      have he : a.empty = false := by simp [Elem.empty, hh]
      rw [he] at h5
      simp only [Bool.false_eq_true, if_false] at h5
      split at h5
      · rename_i hk; exact (hd hh h1 hk).2.1 h5
      · cases h5
    · rintro ⟨⟨h1, h2, h3, h4⟩, h5⟩
      refine ⟨h1, h2, h3, h4, ?_⟩
      cases hh : a.has with
      | false => simp [Elem.empty, hh]
      | true =>
        have h5' := h5 hh
        have hk : a.kind = b.kind := by
          have := congrArg Data.kind h5'
          rw [anonymousD_kind, anonymousD_kind] at this
          exact this
        simp only [Elem.empty, hh, Bool.not_true, Bool.false_eq_true, if_false, hk, if_true]
        exact (hd hh h1 hk).2.2 h5'
  · simp only [hnone, reduceCtorEq, false_or, Option.some.injEq, hemp, beq_iff_eq, hm.1, hat.1]
    constructor
    · rintro ⟨h1, h2, h3, h4, h5⟩
      split at h5
      · cases h5
      · rename_i he
        have hh : a.has = true := by simpa [Elem.empty] using he
        split at h5
        · rename_i hk; exact absurd h5 (hd hh h1 hk).1
        · rename_i hk; exact ⟨⟨h1, h2, h3, h4⟩, hh, hk⟩
    · rintro ⟨⟨h1, h2, h3, h4⟩, hh, hk⟩
      refine ⟨h1, h2, h3, h4, ?_⟩
      simp [Elem.empty, hh, hk]

theorem alike_symm {a b : Elem} (h : Alike a b) : Alike b a :=
  ⟨⟨h.1.has.symm, h.1.name.symm, fun k hk => (h.1.metas k hk).symm, fun k hk => (h.1.attributes k hk).symm⟩,
   fun hh => (h.2 (by rw [h.1.has]; exact hh)).symm⟩
theorem alike_refl (a : Elem) : Alike a a := ⟨⟨rfl, rfl, fun _ _ => rfl, fun _ _ => rfl⟩, fun _ => rfl⟩
theorem alike_trans {a b c : Elem} (h : Alike a b) (h' : Alike b c) : Alike a c :=
  ⟨⟨h.1.has.trans h'.1.has, h.1.name.trans h'.1.name, fun k hk => (h.1.metas k hk).trans (h'.1.metas k hk),
    fun k hk => (h.1.attributes k hk).trans (h'.1.attributes k hk)⟩,
   fun hh => (h.2 hh).trans (h'.2 (by rw [← h.1.has]; exact hh))⟩

/-- The search for an entry. -/
theorem findAlike_ok (equal : Elem → Option Bool) (P : Elem → Prop) (l : List Elem) (hp : ∀ y ∈ l, equal y = some true ↔ P y) (b : Bool)
    (h : findAlike equal l = some b) : b = true ↔ ∃ y ∈ l, P y := by
  induction l with
  | nil => simp only [findAlike, Option.some.injEq] at h; subst h; simp
  | cons y r ih =>
    simp only [findAlike] at h
    have hy := hp y (by simp)
    cases he : equal y with
    | none => rw [he] at h; cases h
    | some c =>
      rw [he] at h hy
      cases c with
      | true =>
        simp only [Option.some.injEq] at h; subst h
        simp only [true_iff]
        exact ⟨y, by simp, hy.1 rfl⟩
      | false =>
        simp only at h
        rw [ih (fun z hz => hp z (by simp [hz])) h]
        constructor
        · rintro ⟨z, hz, hq⟩; exact ⟨z, by simp [hz], hq⟩
        · rintro ⟨z, hz, hq⟩
          rcases List.mem_cons.1 hz with rfl | hz
          · have := hy.2 hq; cases this
          · exact ⟨z, hz, hq⟩

theorem addEnumerations_gathered (b : Bool) : ∀ (l there result : List Elem), (∀ x ∈ l, Sound x) → (∀ x ∈ there, Sound x) →
    (addEnumerations b l there).result = .ok result →
    ∃ n, Gathered (l.map fun x => (x, b)) there result n ∧ (addEnumerations b l there).warnings = List.replicate n .duplicate
  | [], there, result, _, _, h => by
    rw [addEnumerations] at h ⊢; cases h; exact ⟨0, .done, rfl⟩
  | x :: r, there, result, hl, ht, h => by
    rw [addEnumerations] at h ⊢
    simp only [W.bind_ok, W.defined_ok] at h
    obtain ⟨f, hf, h⟩ := h
    have hf' : (W.defined (findAlike (alike x) there)).result = .ok f := (W.defined_ok _ _).2 hf
    rw [W.bind_warnings _ _ _ hf', W.defined_warnings, List.nil_append]
    have key := findAlike_ok (alike x) (Alike x) there (fun y hy => (alike_iff x y (hl x (by simp)) (ht y hy)).1) f hf
    cases f with
    | true =>
      simp only [if_true] at h ⊢
      rw [W.warn_bind] at h ⊢
      obtain ⟨n, hg, hw⟩ := addEnumerations_gathered b r there result (fun y hy => hl y (by simp [hy])) ht h
      refine ⟨_, .again (key.1 rfl) hg, ?_⟩
      simp only [hw]
      cases b
      · simp
      · rw [Nat.add_comm]; rfl
    | false =>
      simp only [Bool.false_eq_true, if_false] at h ⊢
      obtain ⟨n, hg, hw⟩ := addEnumerations_gathered b r (there ++ [x]) result (fun y hy => hl y (by simp [hy]))
        (fun y hy => by
          rcases List.mem_append.1 hy with hy | hy
          · exact ht y hy
          · simp only [List.mem_singleton] at hy; subst hy; exact hl y (by simp)) h
      refine ⟨n, .new ?_ hg, hw⟩
      intro y hy hxy
      have := key.2 ⟨y, hy, hxy⟩
      cases this

theorem gathered_append {l l' : List (Elem × Bool)} {a b c : List Elem} {n n' : Nat} (h : Gathered l a b n) (h' : Gathered l' b c n') :
    Gathered (l ++ l') a c (n + n') := by
  induction h with
  | done => simpa using h'
  | new h1 _ ih => exact .new h1 (ih h')
  | again h1 _ ih =>
    rw [Nat.add_assoc]
    exact .again h1 (ih h')

theorem withoutValues_ok (vs : List Elem) (hv : ∀ x ∈ vs, Sound x) : ∀ (l l' : List Elem), (∀ x ∈ l, Sound x) → (withoutValues vs l).result = .ok l' →
    Filtered (fun x => ∀ y ∈ vs, ¬ Alike x y) l l' ∧ (withoutValues vs l).warnings = []
  | [], l', _, h => by rw [withoutValues] at h ⊢; cases h; exact ⟨.nil, rfl⟩
  | x :: r, l', hl, h => by
    rw [withoutValues] at h ⊢
    simp only [W.bind_ok, W.defined_ok, W.pure_result, Except.ok.injEq] at h
    obtain ⟨f, hf, l'', h'', rfl⟩ := h
    have hf' : (W.defined (findAlike (fun v => alike v x) vs)).result = .ok f := (W.defined_ok _ _).2 hf
    rw [W.bind_warnings _ _ _ hf', W.defined_warnings, List.nil_append, W.bind_warnings _ _ _ h'']
    obtain ⟨h1, h3⟩ := withoutValues_ok vs hv r l'' (fun y hy => hl y (by simp [hy])) h''
    have key := findAlike_ok (fun v => alike v x) (fun y => Alike y x) vs (fun y hy => (alike_iff y x (hv y hy) (hl x (by simp))).1) f hf
    refine ⟨?_, by rw [h3]; rfl⟩
    cases f with
    | true =>
      simp only [if_true]
      obtain ⟨y, hy, hyx⟩ := key.1 rfl
      exact .drop (fun a => a y hy (alike_symm hyx)) h1
    | false =>
      simp only [Bool.false_eq_true, if_false]
      refine .keep (fun y hy hxy => ?_) h1
      have := key.2 ⟨y, hy, alike_symm hxy⟩; cases this

/-! ## Flags of entries -/

theorem asArray_list (es : List Elem) : asArray (list es) = some es := rfl

theorem holdsWord_iff (es : List Elem) (w : Bytes) : holdsWord w es = true ↔ ∃ x ∈ es, x.has = true ∧ x.data = .string w := by
  unfold holdsWord
  rw [List.any_eq_true]
  constructor
  · rintro ⟨y, hy, h⟩
    refine ⟨y, hy, ?_⟩
    split at h
    · rename_i s hs
      simp only [Bool.and_eq_true, beq_iff_eq] at h
      rw [hs, h.2]; exact ⟨h.1, rfl⟩
    · cases h
  · rintro ⟨y, hy, h1, h2⟩
    exact ⟨y, hy, by rw [h2]; simp [h1]⟩

theorem hasTypeAttr_iff (e : Elem) (he : Sound e) : hasTypeAttr e (str "fixed") = true ↔ HasFixed e := by
  unfold HasFixed
  cases hf : Infos.find e.attributes (str "typeAttributes") with
  | none =>
    have h1 : flagsOf e = [] := by unfold flagsOf attr; rw [hf]
    have h2 : hasTypeAttr e (str "fixed") = false := by unfold hasTypeAttr; rw [hf]
    rw [h1, h2]; simp
  | some x =>
    obtain ⟨es, rfl⟩ := he.flags x hf
    have h1 : flagsOf e = es := by unfold flagsOf attr; rw [hf]; rfl
    have h2 : hasTypeAttr e (str "fixed") = holdsWord (str "fixed") es := by unfold hasTypeAttr; rw [hf]; rfl
    rw [h1, h2]; exact holdsWord_iff es _

theorem isLiteral_iff (e : Elem) (he : Sound e) : isLiteral e = true ↔ Literal e := by
  unfold isLiteral Literal
  have hf := hasTypeAttr_iff e he
  have key : (∃ t, Primitive t ∧ Is t e) ↔ e.kind = .string ∨ e.kind = .number ∨ e.kind = .boolean := by
    constructor
    · rintro ⟨t, hp, ht⟩
      rw [is_iff] at ht
      rcases hp with rfl | rfl | rfl <;> simp [ht, kindOf]
    · rintro (h | h | h)
      · exact ⟨.string, .inr (.inl rfl), (is_iff _ _).2 h⟩
      · exact ⟨.number, .inr (.inr rfl), (is_iff _ _).2 h⟩
      · exact ⟨.boolean, .inl rfl, (is_iff _ _).2 h⟩
  have hnull : e.data ≠ .null ↔ e.kind ≠ .null := by
    cases e with | mk n m a h d => cases d <;> simp [Elem.data, Elem.kind, Data.kind]
  rw [key, ← hf, hnull]
  cases hk : e.kind <;> simp_all <;> tauto

theorem entryE_flagged (e : Elem) (he : Sound e) : Flagged e (entryE .enum e) := by
  unfold entryE
  rw [if_pos rfl]
  by_cases hl : isLiteral e = true
  · rw [if_pos hl]
    have hL := (isLiteral_iff e he).1 hl
    unfold setFixed
    cases hf : Infos.find e.attributes (str "typeAttributes") with
    | none =>
      have : flagsOf e = [] := by unfold flagsOf attr; rw [hf]
      have := Flagged.flagged hL (by unfold HasFixed; rw [this]; simp)
      simp only [‹flagsOf e = []›, List.nil_append] at this
      exact this
    | some x =>
      obtain ⟨es, rfl⟩ := he.flags x hf
      have hfl : flagsOf e = es := by unfold flagsOf attr; rw [hf]; rfl
      simp only [list]
      by_cases hw : holdsWord (str "fixed") es = true
      · rw [if_pos hw]
        exact .asIs (.inr (by unfold HasFixed; rw [hfl]; exact (holdsWord_iff _ _).1 hw))
      · rw [if_neg hw]
        have := Flagged.flagged hL (by unfold HasFixed; rw [hfl]; exact fun a => hw ((holdsWord_iff _ _).2 a))
        rw [hfl] at this
        exact this
  · rw [if_neg hl]
    exact .asIs (.inl (fun a => hl ((isLiteral_iff e he).2 a)))

end Verif.DataStructure
