import Verif.Proof.Lines
import Verif.Props.C06_C07
/-!
# C11 – line and column of annotations
-/
namespace Verif.Props
open Verif Verif.Spec Verif.Lines

/-- Any source text: the newline index is computed from its code points. -/
theorem linesEndIndex_text (cs : List Nat) (h : ∀ c ∈ cs, Scalar c) :
    linesEndIndex (utf8s cs) = 0 :: newlineIdx 1 cs := by
  rw [linesEndIndex, C06_decode_wellformed cs h]

/-- C11 (part): for every text and every non-empty range such that some newline follows its last character (or is it),
    the reported start is the line and column of the first character and the reported end is the line and column of
    the last character.  Missing: ranges that touch an unterminated last line and the empty range at offset 0, where
    the code is wrong (`C11_last_line_start_refuted`, `C11_last_line_end_refuted`, `C11_empty_at_zero_refuted`). -/
theorem C11_position_partial (cs : List Nat) (hs : ∀ c ∈ cs, Scalar c) (loc len : Nat) (hl : 0 < len)
    (h : NewlineFrom cs (loc + len - 1)) :
    getLineFromMap (linesEndIndex (utf8s cs)) loc len =
      some { fromLine := lineOf cs loc, fromColumn := columnOf cs loc,
             toLine := lineOf cs (loc + len - 1), toColumn := columnOf cs (loc + len - 1) } := by
  have h' : NewlineFrom cs loc := by
    unfold NewlineFrom at *
    rw [show loc + len - 1 = loc + (len - 1) by omega, ← List.drop_drop] at h
    exact List.mem_of_mem_drop h
  rw [linesEndIndex_text cs hs]
  simp [getLineFromMap, startPos_ok cs loc h', endPos_ok cs (loc + len) (by omega) h]

/-- C11 (part): the start position of a range alone only needs a newline at or after the start. -/
theorem C11_start_partial (cs : List Nat) (hs : ∀ c ∈ cs, Scalar c) (loc len : Nat) (hl : 0 < loc + len)
    (h : NewlineFrom cs loc) :
    ∃ p, getLineFromMap (linesEndIndex (utf8s cs)) loc len = some p ∧ p.fromLine = lineOf cs loc ∧ p.fromColumn = columnOf cs loc := by
  rw [linesEndIndex_text cs hs]
  by_cases he : NewlineFrom cs (loc + len - 1)
  · exact ⟨_, by simp [getLineFromMap, startPos_ok cs loc h, endPos_ok cs (loc + len) hl he]; rfl, rfl, rfl⟩
  · exact ⟨_, by simp [getLineFromMap, startPos_ok cs loc h, endPos_last cs (loc + len) hl he]; rfl, rfl, rfl⟩

/-- C11: the reported end line is right for every range except the empty one at offset 0, for every text. -/
theorem C11_end_line (cs : List Nat) (hs : ∀ c ∈ cs, Scalar c) (loc len : Nat) (hl : 0 < loc + len) :
    ∃ p, getLineFromMap (linesEndIndex (utf8s cs)) loc len = some p ∧ p.toLine = lineOf cs (loc + len - 1) := by
  rw [linesEndIndex_text cs hs]
  by_cases he : NewlineFrom cs (loc + len - 1) <;> by_cases h : NewlineFrom cs loc
  · exact ⟨_, by simp [getLineFromMap, startPos_ok cs loc h, endPos_ok cs (loc + len) hl he]; rfl, rfl⟩
  · exact ⟨_, by simp [getLineFromMap, startPos_last cs loc h, endPos_ok cs (loc + len) hl he]; rfl, rfl⟩
  · exact ⟨_, by simp [getLineFromMap, startPos_ok cs loc h, endPos_last cs (loc + len) hl he]; rfl, rfl⟩
  · exact ⟨_, by simp [getLineFromMap, startPos_last cs loc h, endPos_last cs (loc + len) hl he]; rfl, rfl⟩

/-- "# A\né" + newline: a range on the second line meets the hypotheses. -/
example : (∀ c ∈ [35, 32, 65, 10, 233, 10], Scalar c) ∧ NewlineFrom [35, 32, 65, 10, 233, 10] (4 + 1 - 1) ∧
    lineOf [35, 32, 65, 10, 233, 10] 4 = 2 ∧ columnOf [35, 32, 65, 10, 233, 10] 4 = 1 := by
  refine ⟨by decide, ?_, by decide, by decide⟩
  unfold NewlineFrom; decide

/-- C11 refuted: *every* range that starts after the last newline of the source is reported as starting in line 0,
    column 0. -/
theorem C11_last_line_start_refuted (cs : List Nat) (hs : ∀ c ∈ cs, Scalar c) (loc len : Nat) (hl : 0 < loc + len)
    (h : ¬ NewlineFrom cs loc) :
    ∃ p, getLineFromMap (linesEndIndex (utf8s cs)) loc len = some p ∧ p.fromLine = 0 ∧ p.fromColumn = 0 ∧ lineOf cs loc ≠ 0 := by
  rw [linesEndIndex_text cs hs]
  by_cases he : NewlineFrom cs (loc + len - 1)
  · exact ⟨_, by simp [getLineFromMap, startPos_last cs loc h, endPos_ok cs (loc + len) hl he]; rfl, rfl, rfl, by simp [lineOf]⟩
  · exact ⟨_, by simp [getLineFromMap, startPos_last cs loc h, endPos_last cs (loc + len) hl he]; rfl, rfl, rfl, by simp [lineOf]⟩

example : ¬ NewlineFrom [97, 10, 98, 99] 2 := by unfold NewlineFrom; decide

/-- C11 refuted: a range that ends after the last newline is always reported as ending in column 1. -/
theorem C11_last_line_end_refuted (cs : List Nat) (hs : ∀ c ∈ cs, Scalar c) (loc len : Nat) (hl : 0 < loc + len)
    (h : ¬ NewlineFrom cs (loc + len - 1)) :
    ∃ p, getLineFromMap (linesEndIndex (utf8s cs)) loc len = some p ∧ p.toColumn = 1 := by
  rw [linesEndIndex_text cs hs]
  by_cases h' : NewlineFrom cs loc
  · exact ⟨_, by simp [getLineFromMap, startPos_ok cs loc h', endPos_last cs (loc + len) hl h]; rfl, rfl⟩
  · exact ⟨_, by simp [getLineFromMap, startPos_last cs loc h', endPos_last cs (loc + len) hl h]; rfl, rfl⟩

example : ¬ NewlineFrom [97, 10, 98, 99] (2 + 2 - 1) ∧ columnOf [97, 10, 98, 99] (2 + 2 - 1) = 2 := by
  unfold NewlineFrom; decide

/-- C11 refuted: for the empty range at offset 0 the code dereferences the iterator before the first element, whatever
    the (non-pathological) text. -/
theorem C11_empty_at_zero_refuted (src : Bytes) : getLineFromMap (linesEndIndex src) 0 0 = none := by
  have : lowerBound (0 :: newlineIdx 1 (Verif.Utf8.decodeAll src)) 0 = 0 := by simp [lowerBound]
  simp [getLineFromMap, endPos, derefPrev, linesEndIndex, this]

end Verif.Props
