import Verif.Model.Lines
import Verif.Spec.Lines
import Verif.Proof.Util
namespace Verif.Lines
open Verif Verif.Utf8 Verif.Spec

theorem newlineIdx_ge (i : Nat) (cs : List Nat) : ∀ x ∈ newlineIdx i cs, i ≤ x := by
  induction cs generalizing i with
  | nil => simp [newlineIdx]
  | cons c r ih =>
    intro x hx
    simp only [newlineIdx] at hx
    split at hx
    · rcases List.mem_cons.1 hx with h | h
      · omega
      · have := ih (i + 1) x h; omega
    · have := ih (i + 1) x hx; omega

theorem newlineIdx_length (i : Nat) (cs : List Nat) : (newlineIdx i cs).length = cs.count 10 := by
  induction cs generalizing i with
  | nil => rfl
  | cons c r ih =>
    simp only [newlineIdx]
    split
    · subst_vars; simp [ih]
    · rename_i h; rw [ih, List.count_cons_of_ne (by simpa using h)]

theorem takeWhile_le (v i : Nat) (cs : List Nat) :
    (newlineIdx i cs).takeWhile (· ≤ v) = newlineIdx i (cs.take (v + 1 - i)) := by
  induction cs generalizing i with
  | nil => simp [newlineIdx]
  | cons c r ih =>
    by_cases hv : i ≤ v
    · rw [show v + 1 - i = (v + 1 - (i + 1)) + 1 by omega, List.take_succ_cons]
      simp only [newlineIdx]
      split
      · rw [List.takeWhile_cons, if_pos (by simpa using hv), ih]
      · exact ih (i + 1)
    · rw [show v + 1 - i = 0 by omega, List.take_zero]
      have : ∀ l : List Nat, (∀ x ∈ l, i ≤ x) → l.takeWhile (· ≤ v) = [] := by
        intro l hl
        cases l with
        | nil => rfl
        | cons x l => rw [List.takeWhile_cons, if_neg]; have := hl x (by simp); simp; omega
      rw [this _ (newlineIdx_ge i (c :: r))]; rfl

theorem takeWhile_lt (v i : Nat) (cs : List Nat) :
    (newlineIdx i cs).takeWhile (· < v) = newlineIdx i (cs.take (v - i)) := by
  cases v with
  | zero =>
    simp only [Nat.zero_sub, List.take_zero, newlineIdx]
    cases newlineIdx i cs <;> simp
  | succ v =>
    have := takeWhile_le v i cs
    rw [← this]
    congr 1; funext x; simp; omega

theorem newlineIdx_snoc (i : Nat) (cs : List Nat) (c : Nat) :
    newlineIdx i (cs ++ [c]) = newlineIdx i cs ++ (if c = 10 then [i + cs.length] else []) := by
  induction cs generalizing i with
  | nil => simp [newlineIdx]
  | cons d r ih =>
    simp only [List.cons_append, newlineIdx, ih, List.length_cons]
    rw [show i + 1 + r.length = i + (r.length + 1) by omega]
    split <;> simp

/-- The last line start. -/
theorem getLast_idx (rs : List Nat) :
    (0 :: newlineIdx 1 rs.reverse).getLast? = some (rs.length - (rs.takeWhile (fun c => c ≠ 10)).length) := by
  induction rs with
  | nil => rfl
  | cons c rs ih =>
    rw [List.reverse_cons, newlineIdx_snoc]
    by_cases hc : c = 10
    · rw [if_pos hc, ← List.cons_append, List.getLast?_append]
      simp [hc]; omega
    · rw [if_neg hc, List.append_nil, ih, List.takeWhile_cons, if_pos (by simpa using hc)]
      simp

theorem getElem_takeWhile {p : Nat → Bool} {l : List Nat} (h : l.takeWhile p ≠ []) :
    l[(l.takeWhile p).length - 1]? = (l.takeWhile p).getLast? := by
  have hl : 0 < (l.takeWhile p).length := List.length_pos_iff.2 h
  have hp : l.takeWhile p <+: l := List.takeWhile_prefix p
  obtain ⟨t, ht⟩ := hp
  rw [List.getLast?_eq_getElem?]
  generalize l.takeWhile p = w at *
  subst ht
  rw [List.getElem?_append_left (by omega)]

theorem count_take_drop (cs : List Nat) (p : Nat) : cs.count 10 = (cs.take p).count 10 + (cs.drop p).count 10 := by
  conv => lhs; rw [← List.take_append_drop p cs, List.count_append]

theorem upper_take (cs : List Nat) (loc : Nat) :
    (0 :: newlineIdx 1 cs).takeWhile (· ≤ loc) = 0 :: newlineIdx 1 (cs.take loc) := by
  rw [List.takeWhile_cons, if_pos (by simp), takeWhile_le, show loc + 1 - 1 = loc by omega]

theorem lower_take (cs : List Nat) (e : Nat) (h : 0 < e) :
    (0 :: newlineIdx 1 cs).takeWhile (· < e) = 0 :: newlineIdx 1 (cs.take (e - 1)) := by
  rw [List.takeWhile_cons, if_pos (by simpa using h), takeWhile_lt]

theorem col_eq (cs : List Nat) (p : Nat) (hp : p ≤ cs.length) :
    (0 :: newlineIdx 1 (cs.take p)).getLast? = some (p + 1 - columnOf cs p) := by
  have := getLast_idx (cs.take p).reverse
  rw [List.reverse_reverse] at this
  rw [this, columnOf, List.length_reverse, List.length_take, Nat.min_eq_left hp]
  congr 1; omega

theorem col_bounds (cs : List Nat) (p : Nat) (hp : p ≤ cs.length) : 1 ≤ columnOf cs p ∧ columnOf cs p ≤ p + 1 := by
  unfold columnOf
  have : ((cs.take p).reverse.takeWhile (fun c => c ≠ 10)).length ≤ (cs.take p).reverse.length :=
    (List.takeWhile_prefix _).length_le
  simp only [List.length_reverse, List.length_take] at this
  omega

theorem newline_lt {cs : List Nat} {p : Nat} (h : NewlineFrom cs p) : p < cs.length := by
  unfold NewlineFrom at h
  apply Nat.lt_of_not_le
  intro hle
  rw [List.drop_eq_nil_of_le hle] at h
  simp at h

theorem startPos_ok (cs : List Nat) (loc : Nat) (h : NewlineFrom cs loc) :
    startPos (0 :: newlineIdx 1 cs) loc = some (lineOf cs loc, columnOf cs loc) := by
  have hp := newline_lt h
  have hu := upper_take cs loc
  have hne : (0 :: newlineIdx 1 cs).takeWhile (· ≤ loc) ≠ [] := by rw [hu]; simp
  have hg := getElem_takeWhile hne
  have hc := col_eq cs loc (by omega)
  have hb := col_bounds cs loc (by omega)
  have hcnt := count_take_drop cs loc
  have hpos : 0 < (cs.drop loc).count 10 := List.count_pos_iff.2 h
  rw [hu, hc] at hg
  simp only [startPos, upperBound, hu, List.length_cons, newlineIdx_length] at hg ⊢
  rw [if_pos (by omega)]
  simp only [derefPrev, hg, lineOf]
  simp
  omega

theorem endPos_ok (cs : List Nat) (e : Nat) (he : 0 < e) (h : NewlineFrom cs (e - 1)) :
    endPos (0 :: newlineIdx 1 cs) e = some (lineOf cs (e - 1), columnOf cs (e - 1)) := by
  have hp := newline_lt h
  have hu := lower_take cs e he
  have hne : (0 :: newlineIdx 1 cs).takeWhile (· < e) ≠ [] := by rw [hu]; simp
  have hg := getElem_takeWhile hne
  have hc := col_eq cs (e - 1) (by omega)
  have hb := col_bounds cs (e - 1) (by omega)
  have hcnt := count_take_drop cs (e - 1)
  have hpos : 0 < (cs.drop (e - 1)).count 10 := List.count_pos_iff.2 h
  rw [hu, hc] at hg
  -- the last newline is not before `e`
  have hlast : ¬ (0 :: newlineIdx 1 cs).getLastD 0 < e := by
    intro hlt
    have hall : (0 :: newlineIdx 1 cs).takeWhile (· < e) = 0 :: newlineIdx 1 cs := by
      have hs : ∀ (i : Nat) (cs : List Nat), ∀ x ∈ newlineIdx i cs, x ≤ (newlineIdx i cs).getLastD 0 := by
        intro i cs
        induction cs generalizing i with
        | nil => simp [newlineIdx]
        | cons c r ih =>
          intro x hx
          simp only [newlineIdx] at hx ⊢
          split at hx
          · rename_i h10
            rw [if_pos h10]
            cases hr : newlineIdx (i + 1) r with
            | nil => rw [hr] at hx; simp at hx ⊢; omega
            | cons y ys =>
              have hy := ih (i + 1)
              rw [hr] at hx hy
              rw [show (i :: y :: ys).getLastD 0 = (y :: ys).getLastD 0 by simp]
              rcases List.mem_cons.1 hx with h | h
              · have h1 := hy y (by simp)
                have h2 := newlineIdx_ge (i + 1) r y (by rw [hr]; simp)
                omega
              · exact hy x h
          · rename_i h10
            rw [if_neg h10]
            exact ih (i + 1) x hx
      apply takeWhile_all
      intro x hx
      rcases List.mem_cons.1 hx with h | h
      · simp [h, he]
      · have := hs 1 cs x h
        have hne' : newlineIdx 1 cs ≠ [] := by intro h0; rw [h0] at h; simp at h
        cases hn : newlineIdx 1 cs with
        | nil => exact absurd hn hne'
        | cons y ys =>
          rw [hn] at this hlt
          rw [show (0 :: y :: ys).getLastD 0 = (y :: ys).getLastD 0 by simp] at hlt
          simp only [decide_eq_true_eq]; omega
    rw [hu] at hall
    have := congrArg List.length hall
    simp only [List.length_cons, newlineIdx_length] at this
    omega
  simp only [endPos, lowerBound, hu, List.length_cons, newlineIdx_length] at hg ⊢
  rw [if_neg hlast, if_pos (by omega)]
  simp only [derefPrev, hg, lineOf]
  simp
  omega

/-- After the last newline the line is right but the column is always 1. -/
theorem endPos_last (cs : List Nat) (e : Nat) (he : 0 < e) (h : ¬ NewlineFrom cs (e - 1)) :
    endPos (0 :: newlineIdx 1 cs) e = some (lineOf cs (e - 1), 1) := by
  have hu := lower_take cs e he
  have hcnt := count_take_drop cs (e - 1)
  have h0 : (cs.drop (e - 1)).count 10 = 0 := by
    rw [List.count_eq_zero]; exact h
  have hall : 0 :: newlineIdx 1 (cs.take (e - 1)) = 0 :: newlineIdx 1 cs := by
    have hp := List.takeWhile_prefix (fun x => decide (x < e)) (l := 0 :: newlineIdx 1 cs)
    rw [hu] at hp
    exact hp.eq_of_length (by simp [newlineIdx_length]; omega)
  have hlast : (0 :: newlineIdx 1 cs).getLastD 0 < e := by
    have hm : (0 :: newlineIdx 1 cs).getLastD 0 ∈ (0 :: newlineIdx 1 cs).takeWhile (· < e) := by
      rw [hu, hall]
      rw [List.getLastD_eq_getLast?]
      cases hg : (0 :: newlineIdx 1 cs).getLast? with
      | none => simp at hg
      | some x => exact List.mem_of_getLast? hg
    have := (mem_takeWhile_imp hm)
    simpa using this
  simp only [endPos, if_pos hlast, lineOf, List.length_cons, newlineIdx_length]
  simp; omega

theorem startPos_last (cs : List Nat) (loc : Nat) (h : ¬ NewlineFrom cs loc) :
    startPos (0 :: newlineIdx 1 cs) loc = some (0, 0) := by
  have hu := upper_take cs loc
  have hcnt := count_take_drop cs loc
  have h0 : (cs.drop loc).count 10 = 0 := by
    rw [List.count_eq_zero]; exact h
  simp only [startPos, upperBound, hu, List.length_cons, newlineIdx_length]
  rw [if_neg (by omega)]

end Verif.Lines
