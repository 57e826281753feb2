import Verif.Model.Element
import Verif.Spec.Elements
namespace Verif.Refract
open Verif Verif.Spec

/-! ## Copies -/
mutual
theorem cloneAll_id : (e : Elem) → cloneAll e = e
  | .mk n m a h d => by
      have h1 := cloneInfos_id m; have h2 := cloneInfos_id a; have h3 := cloneData_id d
      simp [cloneAll, h1, h2, h3]
termination_by structural e => e
theorem cloneInfos_id : (l : List (Bytes × Elem)) → cloneInfos l = l
  | [] => rfl
  | p :: r => by have h1 := cloneInfo_id p; have h2 := cloneInfos_id r; simp [cloneInfos, h1, h2]
termination_by structural l => l
theorem cloneInfo_id : (p : Bytes × Elem) → cloneInfo p = p
  | (k, e) => by have h1 := cloneAll_id e; simp [cloneInfo, h1]
termination_by structural p => p
theorem cloneData_id : (d : Data) → cloneData d = d
  | .null => rfl | .string _ => rfl | .number _ => rfl | .boolean _ => rfl | .ref _ => rfl
  | .array es => by have h := cloneList_id es; simp [cloneData, h]
  | .object es => by have h := cloneList_id es; simp [cloneData, h]
  | .extend es => by have h := cloneList_id es; simp [cloneData, h]
  | .option es => by have h := cloneList_id es; simp [cloneData, h]
  | .select es => by have h := cloneList_id es; simp [cloneData, h]
  | .enum v => by have h := cloneOpt_id v; simp [cloneData, h]
  | .holder v => by have h := cloneOpt_id v; simp [cloneData, h]
  | .member k v => by have h := cloneOpt_id k; have h' := cloneOpt_id v; simp [cloneData, h, h']
termination_by structural d => d
theorem cloneList_id : (l : List Elem) → cloneList l = l
  | [] => rfl
  | e :: r => by have h1 := cloneAll_id e; have h2 := cloneList_id r; simp [cloneList, h1, h2]
termination_by structural l => l
theorem cloneOpt_id : (o : Option Elem) → cloneOpt o = o
  | none => rfl
  | some e => by have h1 := cloneAll_id e; simp [cloneOpt, h1]
termination_by structural o => o
end

theorem clone_cAll (e : Elem) : clone cAll e = e := by
  cases e; simp [clone, cAll, cloneInfos_id, cloneData_id, Elem.name, Elem.metas, Elem.attributes, Elem.has, Elem.data]

/-! ## Equality -/

theorem andThen_true (a b : Option Bool) : andThen a b = some true ↔ a = some true ∧ b = some true := by
  cases a with
  | none => simp [andThen]
  | some x => cases x <;> simp [andThen]

theorem andThen_ne_none {a b : Option Bool} (ha : a ≠ none) (hb : b ≠ none) : andThen a b ≠ none := by
  cases a with
  | none => simp at ha
  | some x => cases x <;> simp [andThen]; exact hb

theorem anonymousD_kind (d : Data) : (anonymousD d).kind = d.kind := by cases d <;> rfl
theorem default_kind (k : Kind) : k.default.kind = k := by cases k <;> rfl
theorem anonymousI_length (l : List (Bytes × Elem)) : (anonymousI l).length = l.length := by
  induction l with
  | nil => rfl
  | cons p r ih => simp [anonymousI, ih]
theorem anonymousL_length (l : List Elem) : (anonymousL l).length = l.length := by
  induction l with
  | nil => rfl
  | cons p r ih => simp [anonymousL, ih]

mutual
theorem eq_iff : (e e' : Elem) → noNull e = true → noNull e' = true →
    eqElem e e' ≠ none ∧ (eqElem e e' = some true ↔ anonymous e = anonymous e')
  | .mk n m a h d, .mk n' m' a' h' d', w, w' => by
      have i1 := eqI_iff m m'
      have i2 := eqI_iff a a'
      have i3 := eqD_iff d d'
      simp only [noNull, Bool.and_eq_true, Bool.or_eq_true, Bool.not_eq_true'] at w w'
      obtain ⟨⟨w1, w2⟩, w3⟩ := w
      obtain ⟨⟨w1', w2'⟩, w3'⟩ := w'
      have i1 := i1 w1 w1'
      have i2 := i2 w2 w2'
      have hE : eqElem (.mk n m a h d) (.mk n' m' a' h' d') = if d.kind = d'.kind then
          andThen (some (h == h')) (andThen (eqInfos a a') (andThen (eqInfos m m') (if h = true then eqData d d' else some true)))
          else some false := rfl
      rw [hE]
      simp only [anonymous]
      by_cases hk : d.kind = d'.kind
      · rw [if_pos hk]
        by_cases hh : h = h'
        · subst hh
          simp only [beq_self_eq_true]
          have i4 : (if h = true then eqData d d' else some true) ≠ none ∧
              ((if h = true then eqData d d' else some true) = some true ↔
                (if h = true then anonymousD d else d.kind.default) = (if h = true then anonymousD d' else d'.kind.default)) := by
            cases h
            · simp [hk]
            · simp only [if_pos]
              exact i3 hk (by simpa using w3) (by simpa using w3')
          constructor
          · exact andThen_ne_none (by simp) (andThen_ne_none i2.1 (andThen_ne_none i1.1 i4.1))
          · rw [andThen_true, andThen_true, andThen_true, i1.2, i2.2, i4.2]
            simp only [Elem.mk.injEq, true_and]
            constructor
            · rintro ⟨h2, h1, h4⟩; exact ⟨h1, h2, h4⟩
            · rintro ⟨h1, h2, h4⟩; exact ⟨h2, h1, h4⟩
        · have : (h == h') = false := by simpa using hh
          simp [this, andThen, hh]
      · rw [if_neg hk]
        refine ⟨by simp, ?_⟩
        simp only [Option.some.injEq, Bool.false_eq_true, false_iff]
        intro he
        simp only [Elem.mk.injEq] at he
        obtain ⟨-, -, -, hh, hd⟩ := he
        subst hh
        have := congrArg Data.kind hd
        cases h <;> simp [anonymousD_kind, default_kind] at this <;> exact hk this
termination_by structural e => e
theorem eqI_iff : (l l' : List (Bytes × Elem)) → noNullI l = true → noNullI l' = true →
    eqInfos l l' ≠ none ∧ (eqInfos l l' = some true ↔ anonymousI l = anonymousI l')
  | [], [], _, _ => by simp [eqInfos]
  | [], q :: s, _, _ => by simp [eqInfos, anonymousI]
  | p :: r, [], _, _ => by simp [eqInfos, anonymousI]
  | p :: r, q :: s, w, w' => by
      have i1 := eqP_iff p q
      have i2 := eqI_iff r s
      simp only [noNullI, Bool.and_eq_true] at w w'
      have i1 := i1 w.1 w'.1
      have i2 := i2 w.2 w'.2
      simp only [eqInfos, anonymousI, List.cons.injEq]
      split
      · exact ⟨andThen_ne_none i1.1 i2.1, by rw [andThen_true, i1.2, i2.2]⟩
      · rename_i hl
        refine ⟨by simp, ?_⟩
        simp only [Option.some.injEq, Bool.false_eq_true, false_iff, not_and]
        intro _ hr
        have := congrArg List.length hr
        rw [anonymousI_length, anonymousI_length] at this
        exact hl this
termination_by structural l => l
theorem eqP_iff : (p q : Bytes × Elem) → noNullP p = true → noNullP q = true →
    eqInfo p q ≠ none ∧ (eqInfo p q = some true ↔ anonymousP p = anonymousP q)
  | (k, e), (k', e'), w, w' => by
      have i := eq_iff e e' w w'
      simp only [eqInfo, anonymousP, Prod.mk.injEq]
      exact ⟨andThen_ne_none (by simp) i.1, by rw [andThen_true, i.2]; simp⟩
termination_by structural p => p
theorem eqD_iff : (d d' : Data) → d.kind = d'.kind → noNullD d = true → noNullD d' = true →
    eqData d d' ≠ none ∧ (eqData d d' = some true ↔ anonymousD d = anonymousD d')
  | .null, d', hk, w, w' => by cases d' <;> simp [Data.kind] at hk; simp [eqData, anonymousD]
  | .string _, d', hk, w, w' => by cases d' <;> simp [Data.kind] at hk; simp [eqData, anonymousD]
  | .number _, d', hk, w, w' => by cases d' <;> simp [Data.kind] at hk; simp [eqData, anonymousD]
  | .boolean _, d', hk, w, w' => by cases d' <;> simp [Data.kind] at hk; simp [eqData, anonymousD]
  | .ref _, d', hk, w, w' => by cases d' <;> simp [Data.kind] at hk; simp [eqData, anonymousD]
  | .array es, d', hk, w, w' => by
      have h := eqL_iff es
      cases d' <;> simp [Data.kind] at hk
      simpa [eqData, anonymousD] using h _ w w'
  | .object es, d', hk, w, w' => by
      have h := eqL_iff es
      cases d' <;> simp [Data.kind] at hk
      simpa [eqData, anonymousD] using h _ w w'
  | .extend es, d', hk, w, w' => by
      have h := eqL_iff es
      cases d' <;> simp [Data.kind] at hk
      simpa [eqData, anonymousD] using h _ w w'
  | .option es, d', hk, w, w' => by
      have h := eqL_iff es
      cases d' <;> simp [Data.kind] at hk
      simpa [eqData, anonymousD] using h _ w w'
  | .select es, d', hk, w, w' => by
      have h := eqL_iff es
      cases d' <;> simp [Data.kind] at hk
      simpa [eqData, anonymousD] using h _ w w'
  | .enum v, d', hk, w, w' => by
      have h := eqR_iff v
      cases d' <;> simp [Data.kind] at hk
      simp only [noNullD, Bool.and_eq_true] at w w'
      simpa [eqData, anonymousD] using h _ w.1 w'.1 w.2 w'.2
  | .holder v, d', hk, w, w' => by
      have h := eqR_iff v
      cases d' <;> simp [Data.kind] at hk
      simp only [noNullD, Bool.and_eq_true] at w w'
      simpa [eqData, anonymousD] using h _ w.1 w'.1 w.2 w'.2
  | .member k v, d', hk, w, w' => by
      have h1 := eqO_iff k
      have h2 := eqO_iff v
      cases d' <;> simp [Data.kind] at hk
      simp only [noNullD, Bool.and_eq_true] at w w'
      have h1 := h1 _ w.1 w'.1
      have h2 := h2 _ w.2 w'.2
      simp only [eqData, anonymousD, Data.member.injEq]
      exact ⟨andThen_ne_none h1.1 h2.1, by rw [andThen_true, h1.2, h2.2]⟩
termination_by structural d => d
theorem eqL_iff : (l l' : List Elem) → noNullL l = true → noNullL l' = true →
    eqList l l' ≠ none ∧ (eqList l l' = some true ↔ anonymousL l = anonymousL l')
  | [], [], _, _ => by simp [eqList]
  | [], q :: s, _, _ => by simp [eqList, anonymousL]
  | p :: r, [], _, _ => by simp [eqList, anonymousL]
  | p :: r, q :: s, w, w' => by
      have i1 := eq_iff p q
      have i2 := eqL_iff r s
      simp only [noNullL, Bool.and_eq_true] at w w'
      have i1 := i1 w.1 w'.1
      have i2 := i2 w.2 w'.2
      simp only [eqList, anonymousL, List.cons.injEq]
      split
      · exact ⟨andThen_ne_none i1.1 i2.1, by rw [andThen_true, i1.2, i2.2]⟩
      · rename_i hl
        refine ⟨by simp, ?_⟩
        simp only [Option.some.injEq, Bool.false_eq_true, false_iff, not_and]
        intro _ hr
        have := congrArg List.length hr
        rw [anonymousL_length, anonymousL_length] at this
        exact hl this
termination_by structural l => l
theorem eqR_iff : (o o' : Option Elem) → o.isSome = true → o'.isSome = true → noNullO o = true → noNullO o' = true →
    eqDeref o o' ≠ none ∧ (eqDeref o o' = some true ↔ anonymousO o = anonymousO o')
  | none, _, h, _, _, _ => by simp at h
  | some e, none, _, h, _, _ => by simp at h
  | some e, some e', _, _, w, w' => by
      have i := eq_iff e e' w w'
      simpa [eqDeref, anonymousO] using i
termination_by structural o => o
theorem eqO_iff : (o o' : Option Elem) → noNullO o = true → noNullO o' = true →
    eqOpt o o' ≠ none ∧ (eqOpt o o' = some true ↔ anonymousO o = anonymousO o')
  | none, none, _, _ => by simp [eqOpt]
  | none, some _, _, _ => by simp [eqOpt, anonymousO]
  | some e, none, _, _ => by simp [eqOpt, anonymousO]
  | some e, some e', w, w' => by
      have i := eq_iff e e' w w'
      simpa [eqOpt, anonymousO] using i
termination_by structural o => o
end

/-! ## InfoElements -/

namespace Infos

theorem find_eq_lookup (m : Infos) (k : Bytes) : find m k = lookup k m := by
  induction m with
  | nil => rfl
  | cons p r ih =>
    obtain ⟨k', e⟩ := p
    simp only [find, List.find?_cons, lookup] at ih ⊢
    by_cases h : k' = k <;> simp [h]
    exact ih

theorem find_set (m : Infos) (k k' : Bytes) (e : Elem) : find (set m k e) k' = if k' = k then some e else find m k' := by
  simp only [find_eq_lookup]
  induction m with
  | nil =>
    by_cases h : k' = k
    · simp [set, lookup, h]
    · have : ¬ k = k' := fun x => h x.symm
      simp [set, lookup, h, this]
  | cons p r ih =>
    obtain ⟨k1, e1⟩ := p
    simp only [set]
    by_cases h1 : k1 = k
    · rw [if_pos h1]
      by_cases h : k' = k
      · simp [lookup, h1, h]
      · have : ¬ k = k' := fun x => h x.symm
        simp [lookup, h1, h, this]
    · rw [if_neg h1]
      simp only [lookup]
      by_cases h2 : k1 = k'
      · have : ¬ k' = k := fun x => h1 (h2.trans x)
        simp [h2, this]
      · simp [h2, ih]

theorem keys_set (m : Infos) (k : Bytes) (e : Elem) :
    (set m k e).map (·.1) = if k ∈ m.map (·.1) then m.map (·.1) else m.map (·.1) ++ [k] := by
  induction m with
  | nil => simp [set]
  | cons p r ih =>
    obtain ⟨k1, e1⟩ := p
    simp only [set]
    by_cases h1 : k1 = k
    · simp [h1]
    · have h1' : ¬ k = k1 := fun x => h1 x.symm
      simp only [if_neg h1, List.map_cons, ih, List.mem_cons, h1', false_or]
      split <;> simp

theorem find_erase (m : Infos) (k k' : Bytes) : find (erase m k) k' = if k' = k then none else find m k' := by
  simp only [find_eq_lookup, erase]
  induction m with
  | nil => simp [lookup]
  | cons p r ih =>
    obtain ⟨k1, e1⟩ := p
    simp only [List.filter_cons]
    by_cases h1 : k1 = k
    · subst h1
      simp only [ne_eq, not_true_eq_false, decide_false, Bool.false_eq_true, if_false, lookup]
      simp only [ne_eq] at ih
      rw [ih]
      by_cases h : k' = k1
      · simp [h]
      · have : ¬ k1 = k' := fun x => h x.symm
        simp [h, this]
    · simp only [ne_eq, h1, not_false_eq_true, decide_true, if_true, lookup]
      simp only [ne_eq] at ih
      rw [ih]
      by_cases h2 : k1 = k'
      · subst h2; simp [h1]
      · simp [h2]

theorem keys_erase (m : Infos) (k : Bytes) : (erase m k).map (·.1) = (m.map (·.1)).filter (· ≠ k) := by
  induction m with
  | nil => rfl
  | cons p r ih =>
    simp only [erase, List.filter_cons, List.map_cons] at ih ⊢
    by_cases h : p.1 = k
    · simp [h] at ih ⊢; exact ih
    · simp [h] at ih ⊢; exact ih

theorem claim_fst (m : Infos) (k : Bytes) : (claim m k).1 = find m k := by
  rw [find_eq_lookup]
  induction m with
  | nil => rfl
  | cons p r ih =>
    obtain ⟨k1, e1⟩ := p
    simp only [claim, lookup]
    split <;> simp_all

theorem claim_snd (m : Infos) (k : Bytes) (h : (m.map (·.1)).Nodup) : (claim m k).2 = erase m k := by
  induction m with
  | nil => rfl
  | cons p r ih =>
    obtain ⟨k1, e1⟩ := p
    simp only [List.map_cons, List.nodup_cons] at h
    simp only [claim, erase, List.filter_cons]
    by_cases h1 : k1 = k
    · subst h1
      simp only [ne_eq, if_pos, not_true_eq_false, decide_false, Bool.false_eq_true, if_false]
      rw [List.filter_eq_self.2]
      intro q hq
      have : q.1 ≠ k1 := fun e => h.1 (e ▸ List.mem_map_of_mem (f := (·.1)) hq)
      simpa using this
    · simp [h1]
      have := ih h.2
      simpa [erase] using this

end Infos

/-! ## Objects -/

theorem stringKey_eq (e : Elem) : stringKey e = propertyName e := by
  obtain ⟨n, m, a, h, d⟩ := e
  cases h
  · cases d <;> rfl
  · cases d <;> try rfl
    rename_i k v
    cases k with
    | none => rfl
    | some k =>
      obtain ⟨n', m', a', h', d'⟩ := k
      cases h' <;> cases d' <;> rfl

end Verif.Refract
