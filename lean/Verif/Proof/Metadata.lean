import Verif.Model.Metadata
import Verif.Proof.Text
import Verif.Spec.Metadata
/-! Proofs about metadata. -/
namespace Verif.Text
open Verif Verif.Spec

theorem split_piece {d : UInt8} {p : Bytes} (hp : d ∉ p) (h0 : p ≠ []) : split d p = [p] := by
  have h : p.dropWhile (· ≠ d) = [] := by
    have := dropWhile_append_all (p := fun c => decide (c ≠ d)) (a := p) (l := []) (by intro c hc; simp; rintro rfl; exact hp hc)
    simpa using this
  have h2 := (dropWhile_ne_nil h).1
  rw [split.eq_def, if_neg h0]
  split
  · rw [h2]
  · rename_i hh; rw [h] at hh; cases hh

theorem split_cons {d : UInt8} {p r : Bytes} (hp : d ∉ p) : split d (p ++ d :: r) = p :: split d r := by
  have h1 : (p ++ d :: r).dropWhile (· ≠ d) = d :: r := by
    rw [dropWhile_append_all (by intro c hc; simp; rintro rfl; exact hp hc)]
    simp [List.dropWhile_cons]
  have h2 : (p ++ d :: r).takeWhile (· ≠ d) = p := by
    rw [List.takeWhile_append_of_pos (by intro c hc; simp; rintro rfl; exact hp hc)]
    simp [List.takeWhile_cons]
  rw [split.eq_def, if_neg (by simp)]
  split
  · rename_i hh; rw [h1] at hh; cases hh
  · rename_i hh
    rw [h2]
    rw [h1] at hh; cases hh; rfl

theorem split_intercalate {d : UInt8} : ∀ {ls : List Bytes}, (∀ p ∈ ls, d ∉ p) → (∀ p, ls.getLast? = some p → p ≠ []) →
    split d ([d].intercalate ls) = ls
  | [], _, _ => by rw [split.eq_def]; simp [List.intercalate]
  | [p], h1, h2 => by
    simp only [List.intercalate, List.intersperse_singleton, List.flatten_cons, List.flatten_nil, List.append_nil]
    exact split_piece (h1 p (by simp)) (h2 p rfl)
  | p :: q :: ls, h1, h2 => by
    have e : [d].intercalate (p :: q :: ls) = p ++ d :: [d].intercalate (q :: ls) := by simp [List.intercalate]
    rw [e, split_cons (h1 p (by simp)), split_intercalate (fun x hx => h1 x (by simp at hx ⊢; exact .inr hx)) (fun x hx => h2 x (by simpa using hx))]

theorem trimEnd_unique {s b : Bytes} (hb : Blank b) (hs : ∀ c, s.getLast? = some c → ¬ White c) : trimEnd (s ++ b) = s := by
  unfold trimEnd
  rw [List.reverse_append, dropWhile_append_all (fun c hc => blank_all.1 hb c (List.mem_reverse.1 hc)), dropWhile_head, List.reverse_reverse]
  intro c hc
  rw [List.head?_reverse] at hc
  have := hs c hc
  rw [← isSpace_iff] at this
  simpa using this

end Verif.Text

namespace Verif.Metadata
open Verif Verif.Text Verif.Spec

theorem duplicates_spec (ms : List (Bytes × Bytes)) : ∀ keys, (duplicates ms keys).Nodup ∧ ∀ w, w ∈ duplicates ms keys ↔
    ∃ k, w = .duplicate k ∧ k ∉ keys ∧ 2 ≤ (ms.map (·.1)).count k := by
  induction ms with
  | nil => intro keys; simp [duplicates]
  | cons m rest ih =>
    intro keys
    have hany : rest.any (·.1 == m.1) = true ↔ 1 ≤ (rest.map (·.1)).count m.1 := by
      rw [List.one_le_count_iff, List.any_eq_true]
      simp
    rw [duplicates]
    split
    · rename_i h
      simp only [Bool.and_eq_true, Bool.not_eq_eq_eq_not, Bool.not_true, List.contains_eq_mem, decide_eq_false_iff_not] at h
      obtain ⟨h1, h2⟩ := h
      rw [hany] at h1
      obtain ⟨g1, g2⟩ := ih (keys ++ [m.1])
      refine ⟨List.nodup_cons.2 ⟨fun hm => ?_, g1⟩, fun w => ?_⟩
      · obtain ⟨k, hk, hk1, _⟩ := (g2 _).1 hm
        cases hk; simp at hk1
      · rw [List.mem_cons, g2]
        simp only [List.map_cons, List.count_cons, List.mem_append, List.mem_singleton, not_or]
        constructor
        · rintro (rfl | ⟨k, rfl, ⟨hk1, hk2⟩, hk3⟩)
          · exact ⟨_, rfl, h2, by rw [beq_self_eq_true, if_pos rfl]; omega⟩
          · exact ⟨k, rfl, hk1, by omega⟩
        · rintro ⟨k, rfl, hk1, hk2⟩
          by_cases hk : k = m.1
          · exact .inl (by rw [hk])
          · refine .inr ⟨k, rfl, ⟨hk1, hk⟩, ?_⟩
            have : (m.1 == k) = false := by simpa using Ne.symm hk
            simpa [this] using hk2
    · rename_i h
      simp only [Bool.and_eq_true, Bool.not_eq_eq_eq_not, Bool.not_true, List.contains_eq_mem, decide_eq_false_iff_not, not_and, Decidable.not_not] at h
      obtain ⟨g1, g2⟩ := ih keys
      refine ⟨g1, fun w => ?_⟩
      rw [g2]
      simp only [List.map_cons, List.count_cons]
      constructor
      · rintro ⟨k, rfl, hk1, hk2⟩; exact ⟨k, rfl, hk1, by omega⟩
      · rintro ⟨k, rfl, hk1, hk2⟩
        refine ⟨k, rfl, hk1, ?_⟩
        by_cases hk : k = m.1
        · subst hk
          simp only [beq_self_eq_true, ↓reduceIte] at hk2
          exact absurd (h (hany.2 (by omega))) hk1
        · have : (m.1 == k) = false := by simpa using Ne.symm hk
          simpa [this] using hk2

theorem filterMap_length {α β} {f : α → Option β} {l : List α} : (l.filterMap f).length = l.length ↔ ∀ x ∈ l, (f x).isSome := by
  induction l with
  | nil => simp
  | cons x l ih =>
    have := List.length_filterMap_le f l
    rw [List.filterMap_cons]
    cases hx : f x with
    | none => simp [hx]; omega
    | some y => simp [hx, ih]

end Verif.Metadata
