import Verif.Proof.Headers
/-!
# C34 HTTP header names are valid tokens; C35 Duplicate headers are flagged
-/
namespace Verif.Props
open Verif Verif.Text Verif.Headers Verif.Spec

/-! ## C34 -/

/-- A line without NUL is accepted exactly if its name is a token without an exclamation mark; its value is then what follows the
    colon (or the name), trimmed.  Partial: the exclamation mark is allowed in tokens. -/
theorem C34_accepted_partial (headers : List Header) (line n v : Bytes) (h0 : (0 : UInt8) ∉ line) :
    (parseHeaderLine headers line).1 = some (n, v) ↔
      ∃ after, HasName line n after ∧ HasValue after v ∧ Token n ∧ asc '!' ∉ n := accepted_iff h0

example : parseHeaderLine [] (str "X-My:  a b") = (some (str "X-My", str "a b"), []) := by decide +kernel
example : ∃ after, HasName (str "X-My:  a b") (str "X-My") after ∧ HasValue after (str "a b") ∧ Token (str "X-My") ∧ asc '!' ∉ str "X-My" :=
  (C34_accepted_partial [] _ _ _ (by decide +kernel)).1 (by decide +kernel)

/-- Header names with an exclamation mark are valid tokens but rejected. -/
theorem C34_refuted : Token (str "X!") ∧ HasName (str "X!: 1") (str "X!") (str ": 1") ∧
    parseHeaderLine [] (str "X!: 1") = (none, [.illegalName (str "X!")]) := by
  refine ⟨?_, ⟨⟨[], ?_, ?_⟩, ?_, ?_, ?_⟩, ?_⟩
  · unfold Token TokenChar Spec.isDigit Spec.isAlpha; decide +kernel
  · intro c hc; cases hc
  · decide
  · decide
  · decide
  · intro c hc; left; revert hc; revert c; exact forallU8 (by decide +kernel)
  · decide +kernel

/-- The value of an accepted header is trimmed, and a warning tells that it is empty if it is. -/
theorem C34_value (headers : List Header) (line : Bytes) (h : Header) (hh : (parseHeaderLine headers line).1 = some h) :
    Bare h.2 ∧ (h.2 = [] ↔ Warning.noValue h.1 ∈ (parseHeaderLine headers line).2) := by
  unfold parseHeaderLine at hh ⊢
  split at hh
  · cases hh
  · dsimp only at hh
    split at hh
    · cases hh
    · rename_i name colon value hc hv
      cases hh
      refine ⟨bare_trim _, ?_⟩
      dsimp only
      rw [if_neg hv]
      simp only [List.mem_append]
      have h1 : ∀ b : Bool, ¬ Warning.noValue name ∈ (if b = true then [] else [Warning.missingColon name]) := by
        intro b; cases b <;> simp
      have h2 : ∀ b : Bool, ¬ Warning.noValue name ∈ (if b = true then [] else [Warning.duplicate name]) := by
        intro b; cases b <;> simp
      simp only [h1, h2, false_or]
      cases trim value <;> simp

/-- A rejected line yields a warning: that it cannot be parsed if there is no name, and that the name is illegal otherwise. -/
theorem C34_rejected (headers : List Header) (line : Bytes) (h0 : (0 : UInt8) ∉ line) (h : (parseHeaderLine headers line).1 = none) :
    ((parseHeaderLine headers line).2 = [.unparsable] ∧ ∀ n p, ¬ HasName line n p) ∨
    ∃ n p, HasName line n p ∧ (parseHeaderLine headers line).2 = [.illegalName n] := by
  unfold parseHeaderLine at h ⊢
  cases hc : captures line with
  | none => exact .inl ⟨rfl, (captures_none h0).1 hc⟩
  | some x =>
    rw [hc] at h
    dsimp only at h ⊢
    split
    · obtain ⟨p, hp, _⟩ := (captures_iff h0 (name := x.1) (x := x.2)).1 hc
      exact .inr ⟨_, p, hp, rfl⟩
    · rename_i hv; rw [if_neg hv] at h; cases h

example : parseHeaderLine [] (str ": a") = (none, [.unparsable]) := by decide +kernel

/-- A missing colon is warned of. -/
theorem C34_colon (headers : List Header) (line n v : Bytes) (h0 : (0 : UInt8) ∉ line)
    (h : (parseHeaderLine headers line).1 = some (n, v)) :
    Warning.missingColon n ∈ (parseHeaderLine headers line).2 ↔ ∃ after, HasName line n after ∧ ∀ b, ¬ Colon after b := by
  unfold parseHeaderLine at h ⊢
  split at h
  · cases h
  · dsimp only at h
    split at h
    · cases h
    · rename_i name colon value hc hv
      cases h
      dsimp only
      rw [if_neg hv]
      simp only [List.mem_append]
      have h1 : ∀ b : Bool, ¬ Warning.missingColon n ∈ (if b = true then [] else [Warning.duplicate n]) := by
        intro b; cases b <;> simp
      have h2 : ∀ b : Bool, ¬ Warning.missingColon n ∈ (if b = true then [Warning.noValue n] else []) := by
        intro b; cases b <;> simp
      simp only [h1, h2, or_false]
      obtain ⟨p, hp, hx⟩ := (captures_iff h0).1 hc
      rcases hx with ⟨a, b, s, ha, hs, rfl, hb, hx⟩ | ⟨a, b, ha, rfl, hb1, hb2, hx⟩
      · cases hx
        have : (a ++ asc ':' :: s).contains (asc ':') = true := by simp
        rw [if_pos this]
        simp only [List.not_mem_nil, false_iff]
        rintro ⟨p', hp', hn⟩
        obtain ⟨_, rfl⟩ := hasName_unique hp hp'
        exact hn _ ⟨a, ha, rfl⟩
      · cases hx
        have : ¬ colon.contains (asc ':') = true := by
          simp only [List.contains_iff_mem]; intro hm; have := ha _ hm; revert this; decide
        rw [if_neg this]
        simp only [List.mem_singleton, true_iff]
        refine ⟨_, hp, fun b' h' => ?_⟩
        have h1 := colon_dropWhile h'
        have h2 : (colon ++ value).dropWhile (· = asc ' ') = value :=
          dropWhile_all (fun c hc => by simpa using ha c hc) (by intro c hc; simp; rintro rfl; exact hb2 hc)
        rw [h2] at h1
        exact hb1 (by rw [h1]; rfl)

example : parseHeaderLine [] (str "Accept a") = (some (str "Accept", str "a"), [.missingColon (str "Accept")]) := by decide +kernel

/-- A line ends at a NUL: what follows it is lost. -/
theorem C34_nul_refuted : parseHeaderLine [] (str "A: b" ++ [0] ++ str "c") = (some (str "A", str "b"), []) := by decide +kernel

/-- The line of a range of the input is its text without surrounding white space, if it is not blank. -/
theorem C34_fetch_partial (input : Bytes) (location length : Nat) (h : location + length ≤ input.length)
    (hb : ¬ Blank ((input.drop location).take length)) :
    ∃ line, fetchLine input location length = some line ∧ Trimmed ((input.drop location).take length) line :=
  ⟨_, fetchLine_spec h hb, trim_spec _⟩

example : fetchLine (str "  A: b\n  C: d\n") 7 7 = some (str "C: d") := by decide +kernel

/-- If it is blank, everything that follows is taken. -/
theorem C34_fetch_refuted : fetchLine (str "A: b\n \nC: d\nE: f\n") 5 2 = some (str "C: d\nE: f\n") := by decide +kernel

/-! ## C35 -/

/-- The headers are exactly those of the accepted lines, in order. -/
theorem C35_no_loss (lines : List Bytes) (out : List Header × List Warning) :
    (lines.foldl addLine out).1 = out.1 ++ lines.filterMap fun l => (parseHeaderLine [] l).1 := lines_headers lines out

/-- Whatever lines came before, a line yields the warning that a header is a duplicate exactly if it is accepted, a header with a
    name that is equal up to case has been accepted before, and its name is neither Set-Cookie nor Link. -/
theorem C35_duplicate (before : List Bytes) (line n : Bytes) :
    (∃ ws, (before ++ [line]).foldl addLine ([], []) = (((before ++ [line]).foldl addLine ([], [])).1, (before.foldl addLine ([], [])).2 ++ ws) ∧
      (Warning.duplicate n ∈ ws ↔
        (∃ v, (parseHeaderLine [] line).1 = some (n, v)) ∧
        (∃ l ∈ before, ∃ m v, (parseHeaderLine [] l).1 = some (m, v) ∧ CaseEq m n) ∧
        ¬ CaseEq n (str "Set-Cookie") ∧ ¬ CaseEq n (str "Link"))) := by
  refine ⟨(parseHeaderLine (before.foldl addLine ([], [])).1 line).2, ?_, ?_⟩
  · simp [addLine]
  · rw [lines_headers before, List.nil_append]
    generalize hh : (before.filterMap fun l => (parseHeaderLine [] l).1) = hs
    have hmem : (∃ x ∈ hs, CaseEq x.1 n) ↔ ∃ l ∈ before, ∃ m v, (parseHeaderLine [] l).1 = some (m, v) ∧ CaseEq m n := by
      rw [← hh]
      constructor
      · rintro ⟨x, hx, hc⟩
        obtain ⟨l, hl, he⟩ := List.mem_filterMap.1 hx
        exact ⟨l, hl, x.1, x.2, he, hc⟩
      · rintro ⟨l, hl, m, v, he, hc⟩
        exact ⟨(m, v), List.mem_filterMap.2 ⟨l, hl, he⟩, hc⟩
    rw [← hmem, ← accepted_headers hs]
    constructor
    · intro h
      obtain ⟨v, hv⟩ := duplicate_accepted h
      exact ⟨⟨v, hv⟩, ((duplicate_mem hv).1 h).2⟩
    · rintro ⟨⟨v, hv⟩, h⟩
      exact (duplicate_mem hv).2 ⟨rfl, h⟩

example : ([str "A: 1", str "a: 2", str "Link: 3", str "LINK: 4"].foldl addLine ([], [])) =
    ([(str "A", str "1"), (str "a", str "2"), (str "Link", str "3"), (str "LINK", str "4")], [.duplicate (str "a")]) := by decide +kernel

/-- The headers of a section are those of the lines of its ranges, without the fences of a fenced code block. -/
theorem C35_content (input : Bytes) (ranges : List (Nat × Nat)) (out : List Header × List Warning) :
    ∃ fenced, headersFromContent input ranges out =
      (((ranges.filterMap fun r => fetchLine input r.1 r.2).filter fun l => !(fenced && isCodeFence l)).foldl addLine out) ∧
      (fenced = true ↔ ∃ r rs l, ranges = r :: rs ∧ fetchLine input r.1 r.2 = some l ∧ isCodeFence l = true) := by
  have hloop : ∀ (f : Bool) (rs : List (Nat × Nat)) out, headersLoop input f rs out =
      (((rs.filterMap fun r => fetchLine input r.1 r.2).filter fun l => !(f && isCodeFence l)).foldl addLine out) := by
    intro f rs
    induction rs with
    | nil => intro out; rfl
    | cons r rs ih =>
      intro out
      rw [headersLoop, List.filterMap_cons]
      cases fetchLine input r.1 r.2 with
      | none => exact ih out
      | some l =>
        dsimp only
        rw [List.filter_cons]
        cases f && isCodeFence l with
        | true => simpa using ih out
        | false => simpa using ih _
  cases ranges with
  | nil => exact ⟨false, rfl, by simp⟩
  | cons r rs =>
    rw [headersFromContent, List.filterMap_cons]
    cases hf : fetchLine input r.1 r.2 with
    | none =>
      refine ⟨false, hloop _ _ _, ?_⟩
      simp only [Bool.false_eq_true, false_iff]
      rintro ⟨r', rs', l, h1, h2, _⟩
      cases h1; rw [hf] at h2; cases h2
    | some l =>
      dsimp only
      cases hl : isCodeFence l with
      | true =>
        refine ⟨true, ?_, by simp only [true_iff]; exact ⟨r, rs, l, rfl, hf, hl⟩⟩
        rw [if_pos rfl, hloop]; simp [List.filter_cons, hl]
      | false =>
        refine ⟨false, ?_, ?_⟩
        · rw [if_neg (by simp), hloop]; simp
        · simp only [Bool.false_eq_true, false_iff]
          rintro ⟨r', rs', l', h1, h2, h3⟩
          cases h1; rw [hf] at h2; cases h2; rw [hl] at h3; cases h3

end Verif.Props
