import Verif.Proof.Signature
import Verif.Spec.SignatureLine

/-! # Signatures: marks and brackets -/

namespace Verif.SignatureLine
open Verif Verif.Text Verif.Signature Verif.Spec Verif.Spec.SignatureLine

/-! ## Marks -/

theorem findSub_first {p : Bytes} : ∀ {s : Bytes} {e : Nat}, findSub p s = some e → ∀ x y, s = x ++ p ++ y → e ≤ x.length
  | [], e, h, x, y, hs => by
    unfold findSub at h
    split at h
    · simp at h; omega
    · cases h
  | c :: s, e, h, x, y, hs => by
    unfold findSub at h
    split at h
    · simp at h; omega
    · rename_i hp
      cases x with
      | nil => exact absurd (by rw [List.isPrefixOf_iff_prefix, hs]; exact ⟨y, by simp⟩) hp
      | cons a x =>
        cases hf : findSub p s with
        | none => rw [hf] at h; cases h
        | some k =>
          rw [hf] at h
          simp at h hs
          have := findSub_first hf x y (by rw [hs.2]; simp)
          simp; omega

theorem run_unique {c : UInt8} : ∀ {m n : Nat} {u v : Bytes}, List.replicate m c ++ u = List.replicate n c ++ v → u.head? ≠ some c →
    v.head? ≠ some c → m = n ∧ u = v
  | 0, 0, u, v, h, _, _ => ⟨rfl, by simpa using h⟩
  | 0, n + 1, u, v, h, hu, _ => by simp [List.replicate_succ] at h; rw [h] at hu; simp at hu
  | m + 1, 0, u, v, h, _, hv => by simp [List.replicate_succ] at h; rw [← h] at hv; simp at hv
  | m + 1, n + 1, u, v, h, hu, hv => by
    simp [List.replicate_succ] at h
    obtain ⟨rfl, rfl⟩ := run_unique h hu hv
    exact ⟨rfl, rfl⟩

theorem marked_retrieve {c : UInt8} {p t s : Bytes} (h : Marked c p t s) : retrieveEscaped (p ++ s) 0 = (p, s) ∧ p.head? = some c ∧
    (retrieveEscaped (p ++ s) 0 true).1 = t := by
  obtain ⟨n, hn, rfl, ht, hh, hf⟩ := h
  obtain ⟨k, rfl⟩ : ∃ k, n = k + 1 := ⟨n - 1, by omega⟩
  have hc : List.replicate (k + 1) c ++ t ++ List.replicate (k + 1) c ++ s = c :: (List.replicate k c ++ (t ++ List.replicate (k + 1) c ++ s)) := by
    conv => lhs; rw [List.replicate_succ]
    simp [List.replicate_succ]
  obtain ⟨l, d, hl, hs, hd, hr⟩ := retrieve_parts c (List.replicate k c ++ (t ++ List.replicate (k + 1) c ++ s))
  have he : List.replicate (k + 1) c ++ (t ++ List.replicate (k + 1) c ++ s) = List.replicate l c ++ d := by
    rw [← hs]; simp [List.replicate_succ]
  obtain ⟨rfl, rfl⟩ := run_unique he (by cases t with | nil => exact absurd rfl ht | cons a t => simpa using hh) hd
  have hfind : findSub (List.replicate (k + 1) c) (t ++ List.replicate (k + 1) c ++ s) = some t.length := by
    refine findSub_eq ?_
    rintro a b rfl hb ⟨y, hy⟩
    have := hf a y (by rw [List.append_assoc a b, List.append_assoc a, List.append_assoc a]; congr 1; exact hy.symm)
    cases b with
    | nil => exact hb rfl
    | cons b bs => simp at this; omega
  have hlen : (t ++ List.replicate (k + 1) c).length = t.length + (k + 1) := by simp
  refine ⟨?_, by simp [List.replicate_succ], ?_⟩
  · rw [hc, hr, hfind]
    simp only [Bool.false_eq_true, ↓reduceIte]
    rw [List.take_left' hlen, List.drop_left' hlen]
    simp
  · rw [hc, hr, hfind]
    simp

theorem stray_retrieve {c : UInt8} {s : Bytes} (h : Stray c s) (strip : Bool) : retrieveEscaped (c :: s) 0 strip = ([], c :: s) := by
  obtain ⟨n, u, hs, hn, hu, hf⟩ := h
  obtain ⟨l, d, hl, hs', hd, hr⟩ := retrieve_parts c s
  rw [hr]
  obtain ⟨rfl, rfl⟩ := run_unique (hs ▸ hs' : List.replicate n c ++ u = List.replicate l c ++ d) hu hd
  cases hx : findSub (List.replicate n c) u with
  | none => rfl
  | some e =>
    obtain ⟨r, he, _⟩ := findSub_some hx
    exact absurd he (hf _ _)

/-- A mark begins text in marks or is a stray one. -/
theorem mark_cases (c : UInt8) (s : Bytes) : Stray c s ∨ ∃ p t r, c :: s = p ++ r ∧ Marked c p t r := by
  obtain ⟨l, d, hl, hs, hd, hr⟩ := retrieve_parts c s
  cases hf : findSub (List.replicate l c) d with
  | none => exact .inl ⟨l, d, hs, hl, hd, fun x y h => findSub_none hf ⟨x, y, h.symm⟩⟩
  | some e =>
    obtain ⟨r, he, hle⟩ := findSub_some hf
    refine .inr ⟨List.replicate l c ++ d.take e ++ List.replicate l c, d.take e, r, ?_, l, hl, rfl, ?_, ?_, ?_⟩
    · rw [hs]; conv => lhs; rw [he]
      simp
    · intro h0
      rw [h0] at he
      apply hd
      obtain ⟨k, rfl⟩ : ∃ k, l = k + 1 := ⟨l - 1, by omega⟩
      rw [he]; simp [List.replicate_succ]
    · intro h
      apply hd
      cases d with
      | nil => simp at h
      | cons x d => cases e <;> simp at h ⊢; exact h
    · intro x y h
      have := findSub_first hf x y (he.trans h)
      simp; omega

theorem marked_cons {c : UInt8} {p t s : Bytes} (h : Marked c p t s) : ∃ p', p = c :: p' := by
  have := (marked_retrieve h).2.1
  cases p with
  | nil => cases this
  | cons a p => simp at this; subst this; exact ⟨_, rfl⟩

/-! ## Brackets -/

/-- The characters at which a reading stops are no marks and open no brackets. -/
def Closers (stops : Bytes) : Prop := ∀ c ∈ stops, c ≠ asc '`' ∧ c ≠ asc '(' ∧ c ≠ asc '['

theorem pair_closers {o c : UInt8} (h : Pair o c) : Closers [c] := by
  rcases h with ⟨_, rfl⟩ | ⟨_, rfl⟩ <;> intro x hx <;> rw [List.mem_singleton] at hx <;> subst hx <;> decide

theorem pair_open {o c : UInt8} (h : Pair o c) : o ≠ asc '`' ∧ (o = asc '(' ∨ o = asc '[') := by
  rcases h with ⟨rfl, _⟩ | ⟨rfl, _⟩
  · exact ⟨by decide, .inl rfl⟩
  · exact ⟨by decide, .inr rfl⟩

theorem pair_one {o c d : UInt8} (h : Pair o c) (h' : Pair o d) : c = d := by
  rcases h with ⟨rfl, rfl⟩ | ⟨rfl, rfl⟩ <;> rcases h' with ⟨h, rfl⟩ | ⟨h, rfl⟩
  · rfl
  · revert h; decide
  · revert h; decide
  · rfl

theorem scan_stop {stops s m : Bytes} {c : UInt8} {r : Bytes} {t : Option Bytes} (h : Scan stops s m (some (c, r)) t) : c ∈ stops := by
  generalize e : some (c, r) = x at h
  induction h with
  | stop h => injection e with e; injection e with e1 e2; subst e1; exact h
  | over => cases e
  | plain _ _ _ _ _ ih => exact ih e
  | stray _ _ ih => exact ih e
  | marked _ _ ih => exact ih e
  | nested _ _ _ _ ih => exact ih e
  | nestedOpen => cases e

/-- There is always a reading. -/
theorem scan_total : ∀ (n : Nat) (s stops : Bytes), s.length ≤ n → Closers stops → ∃ m r t, Scan stops s m r t ∧
    ∀ x, r = some x → x.2.length < s.length
  | n, [], stops, _, _ => ⟨_, _, _, .over, by intro x h; cases h⟩
  | 0, _ :: _, _, h, _ => by simp at h
  | n + 1, c :: s, stops, h, hc => by
    have hl : s.length ≤ n := by simpa using h
    by_cases h1 : c = asc '`'
    · subst h1
      rcases mark_cases (asc '`') s with hst | ⟨p, t, r, hp, ht⟩
      · obtain ⟨m, r, t, hs, hx⟩ := scan_total n s stops hl hc
        exact ⟨_, _, _, .stray hst hs, fun x e => by have := hx x e; simp; omega⟩
      · obtain ⟨p', rfl⟩ := marked_cons ht
        have hlen := congrArg List.length hp
        simp at hlen
        obtain ⟨m, r', t, hs, hx⟩ := scan_total n r stops (by omega) hc
        rw [hp]
        exact ⟨_, _, _, .marked ht hs, fun x e => by have := hx x e; simp; omega⟩
    by_cases h2 : ∃ k, Pair c k
    · obtain ⟨k, hk⟩ := h2
      obtain ⟨m', r', t', hs, hx⟩ := scan_total n s [k] hl (pair_closers hk)
      cases r' with
      | none => exact ⟨_, _, _, .nestedOpen hk hs, by intro x h; cases h⟩
      | some s' =>
        have hl' := hx s' rfl
        obtain ⟨k', s'⟩ := s'
        have : k' = k := by simpa using scan_stop hs
        subst this
        obtain ⟨m, r, t, hs2, hx2⟩ := scan_total n s' stops (by simp at hl'; omega) hc
        exact ⟨_, _, _, .nested hk hs hs2, fun x e => by have := hx2 x e; simp at hl' ⊢; omega⟩
    by_cases h3 : c ∈ stops
    · exact ⟨_, _, _, .stop h3, by rintro x ⟨⟩; simp⟩
    · obtain ⟨m, r, t, hs, hx⟩ := scan_total n s stops hl hc
      exact ⟨_, _, _, .plain h1 (fun e => h2 ⟨_, .inl ⟨e, rfl⟩⟩) (fun e => h2 ⟨_, .inr ⟨e, rfl⟩⟩) h3 hs,
        fun x e => by have := hx x e; simp; omega⟩

/-- There is one reading. -/
theorem scan_one {stops s m : Bytes} {r : Option (UInt8 × Bytes)} {t : Option Bytes} (h : Scan stops s m r t) : Closers stops →
    ∀ {m' r' t'}, Scan stops s m' r' t' → m' = m ∧ r' = r ∧ t' = t := by
  induction h with
  | @stop stops c s hc =>
    intro hcl m' r' t' h'
    generalize e : c :: s = l at h'
    have := hcl c hc
    cases h' with
    | stop => injection e with e1 e2; subst e1 e2; exact ⟨rfl, rfl, rfl⟩
    | over => cases e
    | plain _ _ _ h => injection e with e1 e2; subst e1; exact absurd hc h
    | stray => injection e with e1 e2; exact absurd e1 this.1
    | marked h => obtain ⟨p', rfl⟩ := marked_cons h; injection e with e1 e2; exact absurd e1 this.1
    | nested h => injection e with e1 e2; subst e1; exact absurd (pair_open h).2 (by simp [this])
    | nestedOpen h => injection e with e1 e2; subst e1; exact absurd (pair_open h).2 (by simp [this])
  | over =>
    intro hcl m' r' t' h'
    generalize e : ([] : Bytes) = l at h'
    cases h' with
    | over => exact ⟨rfl, rfl, rfl⟩
    | marked h => obtain ⟨p', rfl⟩ := marked_cons h; cases e
    | stop => cases e
    | plain => cases e
    | stray => cases e
    | nested => cases e
    | nestedOpen => cases e
  | @plain stops c s m r t h1 h2 h3 h4 _ ih =>
    intro hcl m' r' t' h'
    generalize e : c :: s = l at h'
    cases h' with
    | stop h => injection e with e1 e2; subst e1; exact absurd h h4
    | over => cases e
    | plain _ _ _ _ h => injection e with e1 e2; subst e1 e2; obtain ⟨rfl, rfl, rfl⟩ := ih hcl h; exact ⟨rfl, rfl, rfl⟩
    | stray => injection e with e1 e2; exact absurd e1 h1
    | marked h => obtain ⟨p', rfl⟩ := marked_cons h; injection e with e1 e2; exact absurd e1 h1
    | nested h => injection e with e1 e2; subst e1; exact absurd (pair_open h).2 (by simp [h2, h3])
    | nestedOpen h => injection e with e1 e2; subst e1; exact absurd (pair_open h).2 (by simp [h2, h3])
  | @stray stops s m r t hst _ ih =>
    intro hcl m' r' t' h'
    generalize e : asc '`' :: s = l at h'
    cases h' with
    | stop h => injection e with e1 e2; subst e1; exact absurd rfl (hcl _ h).1
    | over => cases e
    | plain h => injection e with e1 e2; exact absurd e1.symm h
    | stray _ h => injection e with e1 e2; subst e2; obtain ⟨rfl, rfl, rfl⟩ := ih hcl h; exact ⟨rfl, rfl, rfl⟩
    | marked h =>
      have e1 := (marked_retrieve h).1
      rw [← e, stray_retrieve hst] at e1
      obtain ⟨p', rfl⟩ := marked_cons h
      cases e1
    | nested h => injection e with e1 e2; exact absurd e1.symm (pair_open h).1
    | nestedOpen h => injection e with e1 e2; exact absurd e1.symm (pair_open h).1
  | @marked stops p i s m r t hm _ ih =>
    intro hcl m' r' t' h'
    generalize e : p ++ s = l at h'
    obtain ⟨p', hp⟩ := marked_cons hm
    have e0 : l.head? = some (asc '`') := by rw [← e, hp]; rfl
    cases h' with
    | stop h => simp at e0; subst e0; exact absurd rfl (hcl _ h).1
    | over => cases e0
    | plain h => simp at e0; exact absurd e0 h
    | stray h =>
      have e1 := (marked_retrieve hm).1
      rw [e, stray_retrieve h, hp] at e1
      cases e1
    | marked h h' =>
      have e1 := (marked_retrieve hm).1
      rw [e, (marked_retrieve h).1] at e1
      injection e1 with e1 e2
      subst e1 e2
      obtain ⟨rfl, rfl, rfl⟩ := ih hcl h'
      exact ⟨rfl, rfl, rfl⟩
    | nested h => simp at e0; exact absurd e0 (pair_open h).1
    | nestedOpen h => simp at e0; exact absurd e0 (pair_open h).1
  | @nested stops o c s m₁ s₁ t₁ m r t hp _ _ ih1 ih2 =>
    intro hcl m' r' t' h'
    generalize e : o :: s = l at h'
    have ho := pair_open hp
    cases h' with
    | stop h => injection e with e1 e2; subst e1; rcases ho.2 with rfl | rfl
                · exact absurd rfl (hcl _ h).2.1
                · exact absurd rfl (hcl _ h).2.2
    | over => cases e
    | plain _ h2 h3 => injection e with e1 e2; subst e1; exact absurd ho.2 (by simp [h2, h3])
    | stray => injection e with e1 e2; exact absurd e1 ho.1
    | marked h => obtain ⟨p', rfl⟩ := marked_cons h; injection e with e1 e2; exact absurd e1 ho.1
    | nested h h1 h2 =>
      injection e with e1 e2
      subst e1 e2
      have := pair_one hp h
      subst this
      obtain ⟨rfl, hr, rfl⟩ := ih1 (pair_closers hp) h1
      injection hr with hr
      injection hr with _ hr
      subst hr
      obtain ⟨rfl, rfl, rfl⟩ := ih2 hcl h2
      exact ⟨rfl, rfl, rfl⟩
    | nestedOpen h h1 =>
      injection e with e1 e2
      subst e1 e2
      have := pair_one hp h
      subst this
      have := (ih1 (pair_closers hp) h1).2.1
      cases this
  | @nestedOpen stops o c s m₁ t₁ hp _ ih1 =>
    intro hcl m' r' t' h'
    generalize e : o :: s = l at h'
    have ho := pair_open hp
    cases h' with
    | stop h => injection e with e1 e2; subst e1; rcases ho.2 with rfl | rfl
                · exact absurd rfl (hcl _ h).2.1
                · exact absurd rfl (hcl _ h).2.2
    | over => cases e
    | plain _ h2 h3 => injection e with e1 e2; subst e1; exact absurd ho.2 (by simp [h2, h3])
    | stray => injection e with e1 e2; exact absurd e1 ho.1
    | marked h => obtain ⟨p', rfl⟩ := marked_cons h; injection e with e1 e2; exact absurd e1 ho.1
    | nested h h1 h2 =>
      injection e with e1 e2
      subst e1 e2
      have := pair_one hp h
      subst this
      have := (ih1 (pair_closers hp) h1).2.1
      cases this
    | nestedOpen h h1 =>
      injection e with e1 e2
      subst e1 e2
      have := pair_one hp h
      subst this
      obtain ⟨rfl, _, _⟩ := ih1 (pair_closers hp) h1
      exact ⟨rfl, rfl, rfl⟩

/-- What is read, and what is left. -/
def textOf (m : Bytes) (r : Option (UInt8 × Bytes)) : Bytes := m ++ (r.map fun x => x.1 :: x.2).getD []

/-- What is read and what is left is the text. -/
theorem scan_text {stops s m : Bytes} {r : Option (UInt8 × Bytes)} {t : Option Bytes} (h : Scan stops s m r t) : s = textOf m r := by
  induction h with
  | stop => rfl
  | over => rfl
  | plain _ _ _ _ _ ih => rw [ih]; simp [textOf]
  | stray _ _ ih => rw [ih]; simp [textOf]
  | marked _ _ ih => rw [ih]; simp [textOf]
  | nested _ _ _ ih ih' => rw [ih, ih']; simp [textOf]
  | nestedOpen _ _ ih => rw [ih]; simp [textOf]

theorem scan_le {stops s m : Bytes} {r : Option (UInt8 × Bytes)} {t : Option Bytes} (h : Scan stops s m r t) :
    ∀ x, r = some x → x.2.length < s.length := by
  rintro x rfl
  have := congrArg List.length (scan_text h)
  simp [textOf] at this
  omega

/-- Where the loop stops. -/
def stopsOf (close : UInt8) (split : Bool) : Bytes := if split then [close, asc ','] else [close]

/-- What the loop gives for a reading. -/
def looped (close : UInt8) (split clear : Bool) (ret s m : Bytes) : Option (UInt8 × Bytes) → Option Bytes → Bytes × Bytes
  | some (c, r), _ => (ret ++ m ++ (if c = close ∧ split then [] else [c]), r)
  | none, t => (ret ++ m, if clear then [] else t.getD s)

theorem drop_cons {s : Bytes} {i : Nat} {c : UInt8} {l : Bytes} (h : s.drop i = c :: l) : s[i]? = some c ∧ s.drop (i + 1) = l ∧ i < s.length := by
  have hi : i < s.length := by
    have := congrArg List.length h
    simp at this; omega
  rw [List.drop_eq_getElem_cons hi] at h
  injection h with h1 h2
  exact ⟨by rw [List.getElem?_eq_getElem hi, h1], h2, hi⟩

/-- The loop gives what the reading says. -/
theorem loop_scan {stops l m : Bytes} {r : Option (UInt8 × Bytes)} {t : Option Bytes} (h : Scan stops l m r t) :
    ∀ (close : UInt8) (split : Bool), stops = stopsOf close split → close = asc ')' ∨ close = asc ']' →
    ∀ (n : Nat) (s : Bytes) (i : Nat) (clear : Bool) (ret : Bytes), i ≤ s.length → s.drop i = l → l.length < n →
    matchLoop n s i close split clear ret = .ok (looped close split clear ret s m r t) := by
  induction h with
  | @stop stops c l hm =>
    intro close split hstops hc n s i clear ret hi hd hn
    obtain ⟨k, rfl⟩ : ∃ k, n = k + 1 := ⟨n - 1, by omega⟩
    obtain ⟨hg, hd', _⟩ := drop_cons hd
    have hcl : c = close ∨ (split = true ∧ c = asc ',') := by
      rw [hstops] at hm
      unfold stopsOf at hm
      cases split <;> simp at hm <;> simp [hm]
    have hne : c ≠ asc '`' ∧ c ≠ asc '[' ∧ c ≠ asc '(' := by
      rcases hcl with rfl | ⟨_, rfl⟩
      · rcases hc with rfl | rfl <;> decide
      · decide
    rw [matchLoop]
    simp only [hg, if_neg hne.1, if_neg hne.2.1, if_neg hne.2.2, hd', looped]
    by_cases h1 : c = close
    · subst h1; cases split <;> simp
    · rcases hcl with h2 | ⟨h2, h3⟩
      · exact absurd h2 h1
      · subst h2 h3
        simp [h1]
  | @over stops =>
    intro close split hstops hc n s i clear ret hi hd hn
    obtain ⟨k, rfl⟩ : ∃ k, n = k + 1 := ⟨n - 1, by omega⟩
    have hi' : i = s.length := by
      have := congrArg List.length hd
      simp at this; omega
    rw [matchLoop]
    have hg : s[i]? = none := by rw [List.getElem?_eq_none_iff]; omega
    simp only [hg, hi', true_and, looped]
    cases clear <;> simp
  | @plain stops c l m r t h1 h2 h3 h4 _ ih =>
    intro close split hstops hc n s i clear ret hi hd hn
    obtain ⟨k, rfl⟩ : ∃ k, n = k + 1 := ⟨n - 1, by omega⟩
    obtain ⟨hg, hd', hi'⟩ := drop_cons hd
    have h5 : c ≠ close ∧ ¬ (split = true ∧ c = asc ',') := by
      rw [hstops] at h4
      unfold stopsOf at h4
      cases split <;> simp at h4 <;> simp [h4]
    rw [matchLoop]
    simp only [hg, if_neg h1, if_neg h2, if_neg h3, if_neg h5.1]
    rw [if_neg (by simpa using h5.2), ih close split hstops hc k s (i + 1) clear _ (by omega) hd' (by simp at hn; omega)]
    cases r <;> simp [looped]
  | @stray stops l m r t hst _ ih =>
    intro close split hstops hc n s i clear ret hi hd hn
    obtain ⟨k, rfl⟩ : ∃ k, n = k + 1 := ⟨n - 1, by omega⟩
    obtain ⟨hg, hd', hi'⟩ := drop_cons hd
    have he : (retrieveEscaped s i).1 = [] := by rw [(retrieve_drop s i hi).1, hd, stray_retrieve hst]
    rw [matchLoop]
    simp only [hg, if_true, he]
    rw [ih close split hstops hc k s (i + 1) clear _ (by omega) hd' (by simp at hn; omega)]
    cases r <;> simp [looped]
  | @marked stops p inner l m r t htk _ ih =>
    intro close split hstops hc n s i clear ret hi hd hn
    obtain ⟨k, rfl⟩ : ∃ k, n = k + 1 := ⟨n - 1, by omega⟩
    obtain ⟨hr, hp, _⟩ := marked_retrieve htk
    cases p with
    | nil => cases hp
    | cons a p =>
      simp at hp
      subst hp
      obtain ⟨hg, _, hi'⟩ := drop_cons hd
      have e1 : (retrieveEscaped s i).1 = asc '`' :: p := by rw [(retrieve_drop s i hi).1, hd, hr]
      have e2 : (retrieveEscaped s i).2 = l := by rw [(retrieve_drop s i hi).2 (by rw [e1]; simp), hd, hr]
      rw [matchLoop]
      simp only [hg, if_true, e1, e2, List.cons_ne_nil, if_false]
      rw [ih close split hstops hc k l 0 clear _ (by omega) (by simp) (by simp at hn; omega)]
      cases r <;> simp [looped]
  | @nested stops o c l m' l' t' m r t hp h1 _ ih1 ih2 =>
    intro close split hstops hc n s i clear ret hi hd hn
    obtain ⟨k, rfl⟩ : ∃ k, n = k + 1 := ⟨n - 1, by omega⟩
    obtain ⟨hg, hd', hi'⟩ := drop_cons hd
    have hl := scan_le h1 _ rfl
    have hcc : c = asc ')' ∨ c = asc ']' := by
      rcases hp with ⟨_, rfl⟩ | ⟨_, rfl⟩
      · exact .inl rfl
      · exact .inr rfl
    have e1 := ih1 c false rfl hcc k s (i + 1) true [o] (by omega) hd' (by simp at hn; omega)
    have e2 := ih2 close split hstops hc k l' 0 clear (ret ++ ([o] ++ m' ++ [c])) (by omega) (by simp) (by simp at hn hl; omega)
    have h0 := (pair_open hp).1
    rw [matchLoop]
    simp only [hg, if_neg h0]
    rcases hp with ⟨rfl, rfl⟩ | ⟨rfl, rfl⟩
    · rw [if_neg (by decide), if_pos rfl, e1]
      simp only [looped, Except.bind, Bool.false_eq_true, and_false, if_false]
      rw [e2]
      cases r <;> simp [looped]
    · rw [if_pos rfl, e1]
      simp only [looped, Except.bind, Bool.false_eq_true, and_false, if_false]
      rw [e2]
      cases r <;> simp [looped]
  | @nestedOpen stops o c l m' t' hp h1 ih1 =>
    intro close split hstops hc n s i clear ret hi hd hn
    obtain ⟨k, rfl⟩ : ∃ k, n = k + 1 := ⟨n - 1, by omega⟩
    obtain ⟨hg, hd', hi'⟩ := drop_cons hd
    have hcc : c = asc ')' ∨ c = asc ']' := by
      rcases hp with ⟨_, rfl⟩ | ⟨_, rfl⟩
      · exact .inl rfl
      · exact .inr rfl
    have e1 := ih1 c false rfl hcc k s (i + 1) true [o] (by omega) hd' (by simp at hn; omega)
    have h0 := (pair_open hp).1
    obtain ⟨k', rfl⟩ : ∃ k', k = k' + 1 := ⟨k - 1, by simp at hn; omega⟩
    have e2 : ∀ x, matchLoop (k' + 1) [] 0 close split clear x = .ok (x, []) := by intro x; rw [matchLoop]; simp
    rw [matchLoop]
    simp only [hg, if_neg h0]
    rcases hp with ⟨rfl, rfl⟩ | ⟨rfl, rfl⟩
    · rw [if_neg (by decide), if_pos rfl, e1]
      simp only [looped, Except.bind, if_true]
      rw [e2]
      cases clear <;> simp
    · rw [if_pos rfl, e1]
      simp only [looped, Except.bind, if_true]
      rw [e2]
      cases clear <;> simp

end Verif.SignatureLine
