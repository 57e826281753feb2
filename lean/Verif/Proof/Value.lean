import Verif.Spec.Same
namespace Verif.So
open Verif Verif.Spec

/-! ## emplace_unique -/

theorem find_emplace (c : List (Bytes × Value)) (k k' : Bytes) (v : Value) :
    find (emplaceUnique c k v) k' = if k' = k then some v else find c k' := by
  induction c with
  | nil =>
    by_cases h : k' = k
    · subst h; simp [emplaceUnique, find]
    · have h2 : ¬ k = k' := fun e => h e.symm
      simp [emplaceUnique, find, h, h2]
  | cons p r ih =>
    obtain ⟨a, w⟩ := p
    simp only [emplaceUnique]
    by_cases ha : a = k
    · rw [if_pos ha]
      by_cases h : k' = k
      · subst h; simp [find, ha]
      · have h2 : ¬ a = k' := fun e => h (e.symm.trans ha)
        simp [find, h, h2]
    · rw [if_neg ha]
      simp only [find, ih]
      by_cases h : k' = k
      · subst h; simp [ha]
      · simp [h]

theorem keys_emplace (c : List (Bytes × Value)) (k : Bytes) (v : Value) :
    (emplaceUnique c k v).map (·.1) = if k ∈ c.map (·.1) then c.map (·.1) else c.map (·.1) ++ [k] := by
  induction c with
  | nil => simp [emplaceUnique]
  | cons p r ih =>
    obtain ⟨a, w⟩ := p
    simp only [emplaceUnique]
    split
    · subst_vars; simp
    · rename_i h
      simp only [List.map_cons, ih, List.mem_cons]
      have h' : ¬ k = a := fun e => h e.symm
      simp only [h', false_or]
      split <;> simp

/-! ## equality -/

theorem eqMembers_iff (ms ns : List (Bytes × Value)) :
    eqMembers ms ns = true ↔ ∀ p ∈ ms, ∃ q ∈ ns, eqMember p q = true := by
  induction ms with
  | nil => simp [eqMembers]
  | cons p r ih => simp [eqMembers, ih]

mutual
theorem eqV_refl : (v : Value) → eqV v v = true
  | .null => rfl
  | .tru => rfl
  | .fls => rfl
  | .str s => by simp [eqV]
  | .num s => by simp [eqV]
  | .obj ms => by
      have := eqM_refl ms
      simp only [eqV, beq_self_eq_true, Bool.true_and, eqMembers_iff]
      exact fun p hp => ⟨p, hp, this p hp⟩
  | .arr es => by simp [eqV, eqE_refl es]
termination_by structural v => v
theorem eqM_refl : (ms : List (Bytes × Value)) → ∀ p ∈ ms, eqMember p p = true
  | [], p, hp => by simp at hp
  | q :: r, p, hp => by
      have h1 := eqP_refl q
      have h2 := eqM_refl r
      rcases List.mem_cons.1 hp with h | h
      · rw [h]; exact h1
      · exact h2 p h
termination_by structural v => v
theorem eqP_refl : (p : Bytes × Value) → eqMember p p = true
  | (k, v) => by simp [eqMember, eqV_refl v]
termination_by structural v => v
theorem eqE_refl : (es : List Value) → eqElems es es = true
  | [] => rfl
  | v :: r => by simp [eqElems, eqV_refl v, eqE_refl r]
termination_by structural v => v
end

mutual
theorem eqV_trans : (a b c : Value) → eqV a b = true → eqV b c = true → eqV a c = true
  | .null, b, c => by cases b <;> cases c <;> simp [eqV]
  | .tru, b, c => by cases b <;> cases c <;> simp [eqV]
  | .fls, b, c => by cases b <;> cases c <;> simp [eqV]
  | .str s, b, c => by cases b <;> cases c <;> simp [eqV]; intro h1 h2; rw [h1, h2]
  | .num s, b, c => by cases b <;> cases c <;> simp [eqV]; intro h1 h2; rw [h1, h2]
  | .obj ms, b, c => by
      have ih := eqM_trans ms
      cases b <;> cases c <;> simp only [eqV, Bool.false_eq_true, false_implies, implies_true, Bool.and_eq_true, beq_iff_eq, eqMembers_iff]
      rename_i ns ks
      rintro ⟨h1, h2⟩ ⟨h3, h4⟩
      refine ⟨h1.trans h3, fun p hp => ?_⟩
      obtain ⟨q, hq, hpq⟩ := h2 p hp
      obtain ⟨r, hr, hqr⟩ := h4 q hq
      exact ⟨r, hr, ih p hp q r hpq hqr⟩
  | .arr es, b, c => by
      have ih := eqE_trans es
      cases b <;> cases c <;> simp only [eqV, Bool.false_eq_true, false_implies, implies_true, Bool.and_eq_true, beq_iff_eq]
      rename_i ns ks
      rintro ⟨h1, h2⟩ ⟨h3, h4⟩
      exact ⟨h1.trans h3, ih ns ks h1 h2 h4⟩
termination_by structural v => v
theorem eqM_trans : (ms : List (Bytes × Value)) → ∀ p ∈ ms, ∀ q r, eqMember p q = true → eqMember q r = true → eqMember p r = true
  | [], p, hp => by simp at hp
  | a :: t, p, hp => by
      have h1 := eqP_trans a
      have h2 := eqM_trans t
      rcases List.mem_cons.1 hp with h | h
      · rw [h]; exact h1
      · exact h2 p h
termination_by structural v => v
theorem eqP_trans : (p q r : Bytes × Value) → eqMember p q = true → eqMember q r = true → eqMember p r = true
  | (k, v), q, r => by
      have h := eqV_trans v q.2 r.2
      obtain ⟨a, b⟩ := q
      simp only [eqMember, Bool.and_eq_true, beq_iff_eq]
      rintro ⟨h1, h2⟩ ⟨h3, h4⟩
      exact ⟨h1.trans h3, h h2 h4⟩
termination_by structural v => v
theorem eqE_trans : (es fs gs : List Value) → es.length = fs.length → eqElems es fs = true → eqElems fs gs = true → eqElems es gs = true
  | [], fs, gs => by simp [eqElems]
  | v :: r, fs, gs => by
      have h1 := eqV_trans v
      have h2 := eqE_trans r
      cases fs with
      | nil => simp
      | cons w s =>
        cases gs with
        | nil => simp [eqElems]
        | cons x t =>
          simp only [eqElems, Bool.and_eq_true, List.length_cons]
          rintro hl ⟨a, b⟩ ⟨c, d⟩
          exact ⟨h1 w x a c, h2 s t (by omega) b d⟩
termination_by structural v => v
end

theorem sameM_length : (ms ns : List (Bytes × Value)) → SameM ms ns → ms.length = ns.length
  | [], ns, h => by simp only [SameM] at h; simp [h]
  | p :: r, ns, h => by
      simp only [SameM] at h
      obtain ⟨q, s, rfl, -, h⟩ := h
      simp [sameM_length r s h]

theorem sameE_length : (ms ns : List Value) → SameE ms ns → ms.length = ns.length
  | [], ns, h => by simp only [SameE] at h; simp [h]
  | p :: r, ns, h => by
      simp only [SameE] at h
      obtain ⟨q, s, rfl, -, h⟩ := h
      simp [sameE_length r s h]

/-- The two values are equal in both directions. -/
def Both (v w : Value) : Prop := eqV v w = true ∧ eqV w v = true
def BothP (p q : Bytes × Value) : Prop := eqMember p q = true ∧ eqMember q p = true

mutual
theorem same_both : (v w : Value) → Same v w → Both v w
  | .null, w, h => by simp only [Same] at h; subst h; simp [Both, eqV]
  | .tru, w, h => by simp only [Same] at h; subst h; simp [Both, eqV]
  | .fls, w, h => by simp only [Same] at h; subst h; simp [Both, eqV]
  | .str s, w, h => by simp only [Same] at h; subst h; simp [Both, eqV]
  | .num s, w, h => by simp only [Same] at h; subst h; simp [Both, eqV]
  | .obj ms, w, h => by
      have ih := sameM_both ms
      simp only [Same] at h
      obtain ⟨ns, ms', rfl, h1, h2⟩ := h
      have h3 := ih ms' h1
      have hl := sameM_length _ _ h1
      have hl' := h2.length_eq
      simp only [Both, eqV, Bool.and_eq_true, beq_iff_eq, eqMembers_iff]
      refine ⟨⟨by omega, fun p hp => ?_⟩, by omega, fun q hq => ?_⟩
      · obtain ⟨q, hq, h⟩ := h3.1 p hp
        exact ⟨q, h2.mem_iff.1 hq, h.1⟩
      · obtain ⟨p, hp, h⟩ := h3.2 q (h2.mem_iff.2 hq)
        exact ⟨p, hp, h.2⟩
  | .arr es, w, h => by
      have ih := sameE_both es
      simp only [Same] at h
      obtain ⟨fs, rfl, h⟩ := h
      have hl := sameE_length _ _ h
      have h3 := ih fs h
      simp only [Both, eqV, Bool.and_eq_true, beq_iff_eq]
      exact ⟨⟨hl, h3.1⟩, hl.symm, h3.2⟩
termination_by structural v => v
theorem sameM_both : (ms ns : List (Bytes × Value)) → SameM ms ns →
    (∀ p ∈ ms, ∃ q ∈ ns, BothP p q) ∧ (∀ q ∈ ns, ∃ p ∈ ms, BothP p q)
  | [], ns, h => by simp only [SameM] at h; simp [h]
  | p :: r, ns, h => by
      have h1 := sameP_both p
      have h2 := sameM_both r
      simp only [SameM] at h
      obtain ⟨q, s, rfl, hp, h⟩ := h
      obtain ⟨h3, h4⟩ := h2 s h
      have h5 := h1 q hp
      refine ⟨fun x hx => ?_, fun x hx => ?_⟩
      · rcases List.mem_cons.1 hx with e | e
        · exact ⟨q, by simp, e ▸ h5⟩
        · obtain ⟨y, hy, h⟩ := h3 x e
          exact ⟨y, by simp [hy], h⟩
      · rcases List.mem_cons.1 hx with e | e
        · exact ⟨p, by simp, e ▸ h5⟩
        · obtain ⟨y, hy, h⟩ := h4 x e
          exact ⟨y, by simp [hy], h⟩
termination_by structural v => v
theorem sameP_both : (p q : Bytes × Value) → SameP p q → BothP p q
  | (k, v), q, h => by
      have ih := same_both v
      simp only [SameP] at h
      obtain ⟨a, w⟩ := q
      have := ih w h.2
      simp only [BothP, eqMember, Bool.and_eq_true, beq_iff_eq]
      exact ⟨⟨h.1.symm, this.1⟩, h.1, this.2⟩
termination_by structural v => v
theorem sameE_both : (es fs : List Value) → SameE es fs → eqElems es fs = true ∧ eqElems fs es = true
  | [], fs, h => by simp only [SameE] at h; subst h; simp [eqElems]
  | v :: r, fs, h => by
      have h1 := same_both v
      have h2 := sameE_both r
      simp only [SameE] at h
      obtain ⟨w, s, rfl, a, b⟩ := h
      have h3 := h1 w a
      have h4 := h2 s b
      simp [eqElems, h3.1, h3.2, h4]
termination_by structural v => v
end

theorem key_of_eqMember {p q : Bytes × Value} (h : eqMember p q = true) : p.1 = q.1 := by
  obtain ⟨k, v⟩ := p
  simp only [eqMember, Bool.and_eq_true, beq_iff_eq] at h
  exact h.1

mutual
theorem eqV_same : (v w : Value) → UniqueKeys v → eqV v w = true → Same v w
  | .null, w, _, h => by cases w <;> simp_all [eqV, Same]
  | .tru, w, _, h => by cases w <;> simp_all [eqV, Same]
  | .fls, w, _, h => by cases w <;> simp_all [eqV, Same]
  | .str s, w, _, h => by cases w <;> simp_all [eqV, Same]
  | .num s, w, _, h => by cases w <;> simp_all [eqV, Same]
  | .obj ms, w, hu, h => by
      have ih := eqM_same ms
      cases w <;> simp only [eqV, Bool.false_eq_true, Bool.and_eq_true, beq_iff_eq, eqMembers_iff] at h
      rename_i ns
      simp only [UniqueKeys] at hu
      obtain ⟨ms', h1, h2⟩ := ih ns hu.2 hu.1 h.1 h.2
      simp only [Same]
      exact ⟨ns, ms', rfl, h1, h2⟩
  | .arr es, w, hu, h => by
      have ih := eqE_same es
      cases w <;> simp only [eqV, Bool.false_eq_true, Bool.and_eq_true, beq_iff_eq] at h
      rename_i fs
      simp only [UniqueKeys] at hu
      simp only [Same]
      exact ⟨fs, rfl, ih fs hu h.1 h.2⟩
termination_by structural v => v
theorem eqM_same : (ms ns : List (Bytes × Value)) → UniqueKeysM ms → (ms.map (·.1)).Nodup → ms.length = ns.length →
    (∀ p ∈ ms, ∃ q ∈ ns, eqMember p q = true) → ∃ ms', SameM ms ms' ∧ ms'.Perm ns
  | [], ns, hu, hn, hl, h => by
      have : ns = [] := by simpa using hl.symm
      subst this; exact ⟨[], by simp [SameM], .refl _⟩
  | p :: r, ns, hu, hn, hl, h => by
      have ih1 := eqP_same p
      have ih2 := eqM_same r
      simp only [UniqueKeysM] at hu
      simp only [List.map_cons, List.nodup_cons] at hn
      obtain ⟨q, hq, hpq⟩ := h p (by simp)
      obtain ⟨a, b, rfl⟩ := List.append_of_mem hq
      obtain ⟨r', h1, h2⟩ := ih2 (a ++ b) hu.2 hn.2 (by simp at hl ⊢; omega) (by
        intro p' hp'
        obtain ⟨q', hq', h'⟩ := h p' (by simp [hp'])
        refine ⟨q', ?_, h'⟩
        have hne : q' ≠ q := by
          intro e
          have k1 := key_of_eqMember hpq
          have k2 := key_of_eqMember h'
          apply hn.1
          rw [k1, ← e, ← k2]
          exact List.mem_map.2 ⟨p', hp', rfl⟩
        simp only [List.mem_append, List.mem_cons] at hq' ⊢
        rcases hq' with h | h | h
        · exact Or.inl h
        · exact absurd h hne
        · exact Or.inr h)
      refine ⟨q :: r', by simp only [SameM]; exact ⟨q, r', rfl, ih1 q hu.1 hpq, h1⟩, ?_⟩
      exact (List.Perm.cons q h2).trans List.perm_middle.symm
termination_by structural v => v
theorem eqP_same : (p q : Bytes × Value) → UniqueKeysP p → eqMember p q = true → SameP p q
  | (k, v), q, hu, h => by
      have ih := eqV_same v
      simp only [eqMember, Bool.and_eq_true, beq_iff_eq] at h
      simp only [UniqueKeysP] at hu
      simp only [SameP]
      exact ⟨h.1.symm, ih q.2 hu h.2⟩
termination_by structural v => v
theorem eqE_same : (es fs : List Value) → UniqueKeysE es → es.length = fs.length → eqElems es fs = true → SameE es fs
  | [], fs, hu, hl, h => by
      have : fs = [] := by simpa using hl.symm
      simp [SameE, this]
  | v :: r, fs, hu, hl, h => by
      have h1 := eqV_same v
      have h2 := eqE_same r
      simp only [UniqueKeysE] at hu
      cases fs with
      | nil => simp at hl
      | cons w s =>
        simp only [eqElems, Bool.and_eq_true] at h
        simp only [SameE]
        exact ⟨w, s, rfl, h1 w hu.1 h.1, h2 s hu.2 (by simpa using hl) h.2⟩
termination_by structural v => v
end

end Verif.So
