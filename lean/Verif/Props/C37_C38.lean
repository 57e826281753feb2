import Verif.Proof.UriTemplate
/-!
# C37, C38: URI templates
-/
namespace Verif.Props
open Verif Verif.Spec Verif.UriTemplate

/-! ## C37 -/

/-- C37.  The parts of a template are exactly the division of its text that the grammar describes: every text has such a division,
    there is only one, and the parser finds it. -/
theorem C37_parts (uri : Bytes) (ps : List Part) : parseParts uri = ps ↔ PartsText 0 uri ps := parseParts_iff

/-- C37.  Each byte of the template belongs to exactly one part: the texts of the parts, in order, make up the template. -/
theorem C37_lossless (uri : Bytes) : ∃ texts : List (Nat × Bytes), (texts.map Prod.snd).flatten = uri ∧
    texts.length = (parseParts uri).length ∧
    ∀ i (h : i < texts.length) (h' : i < (parseParts uri).length),
      (texts[i]).1 = ((texts.take i).map Prod.snd).flatten.length ∧ PartText (texts[i]).1 (texts[i]).2 (parseParts uri)[i] := by
  have key : ∀ {p : Nat} {s : Bytes} {ps : List Part}, PartsText p s ps → ∃ texts : List (Nat × Bytes), (texts.map Prod.snd).flatten = s ∧
      texts.length = ps.length ∧ ∀ i (h : i < texts.length) (h' : i < ps.length),
        (texts[i]).1 = p + ((texts.take i).map Prod.snd).flatten.length ∧ PartText (texts[i]).1 (texts[i]).2 ps[i] := by
    intro p s ps h
    induction h with
    | nil => exact ⟨[], rfl, rfl, by intro i h; simp at h⟩
    | @cons p s x r xs hx _ _ _ ih =>
      obtain ⟨ts, h1, h2, h3⟩ := ih
      refine ⟨(p, s) :: ts, by simp [h1], by simp [h2], ?_⟩
      intro i h h'
      cases i with
      | zero => exact ⟨by simp, hx⟩
      | succ i =>
        have := h3 i (by simpa using h) (by simpa using h')
        simp only [List.getElem_cons_succ, List.take_succ_cons, List.map_cons, List.flatten_cons, List.length_append]
        exact ⟨by rw [this.1]; omega, this.2⟩
  obtain ⟨ts, h1, h2, h3⟩ := key ((C37_parts uri _).1 rfl)
  exact ⟨ts, h1, h2, fun i h h' => ⟨by simpa using (h3 i h h').1, (h3 i h h').2⟩⟩

/-- C37.  No warning is given exactly for the templates without fault: made of allowed literal characters and closed expressions with a
    supported operator and variables only. -/
theorem C37_warnings (uri : Bytes) : warnings uri = [] ↔ GoodTemplate uri := warnings_nil

/-- C37.  There is one warning for each fault. -/
theorem C37_warning_count (uri : Bytes) : (warnings uri).length = ((parseParts uri).map faults).sum := by
  rw [warnings_eq]
  generalize parseParts uri = ps
  induction ps with
  | nil => rfl
  | cons x ps ih => simp [ih, partWarnings_length]

/-- C37.  The names drafter accepts are those of RFC 6570, and those with one more dot at the end. -/
theorem C37_names (n : Bytes) : VarName n ↔ RfcVarName n ∨ ∃ m, RfcVarName m ∧ n = m ++ [asc '.'] := varName_rfc

/-- C37, partial: a variable of RFC 6570 with a maximum length below 1000 is accepted as it is.  Missing: lengths from 1000
    (`C37_rfc_refuted`). -/
theorem C37_rfc_partial {s : Bytes} {v : Variable} (h : RfcVarSpec s v) (hl : v.limit < 1000) : VarSpec s v := by
  cases h with
  | plain h => exact .plain (varName_rfc.2 (.inl h))
  | explode h => exact .explode (varName_rfc.2 (.inl h))
  | @limit n ds h hd =>
    refine .limit (varName_rfc.2 (.inl h)) ?_ ?_
    · obtain ⟨d, r, hd, hr, hc, rfl⟩ := hd
      simp only [List.length_cons]
      by_cases h3 : r.length = 3
      · exfalso
        match r, h3 with
        | [a, b, c], _ =>
          simp only [decimal, List.foldl_cons, List.foldl_nil] at hl
          have := hd.1
          have : ('1' : Char).toNat = 49 := rfl
          omega
      · omega
    · obtain ⟨d, r, hd, hr, hc, rfl⟩ := hd
      intro c hm
      rcases List.mem_cons.1 hm with rfl | hm
      · have h1 := hd.1; have h2 := hd.2
        exact ⟨by have : ('1' : Char).toNat = 49 := rfl; have : ('0' : Char).toNat = 48 := rfl; omega, h2⟩
      · exact hc c hm

theorem varChar_letter {c : UInt8} (h : LetterByte c) : VarCharText [c] := .inr ⟨c, .inl h, rfl⟩

/-- Every name of RFC 6570 ends in something other than a dot. -/
theorem rfcName_last {n : Bytes} (h : RfcVarName n) : n.getLast? ≠ some (asc '.') := by
  have hu : ∀ {u : Bytes}, VarCharText u → u.getLast? ≠ some (asc '.') ∧ u ≠ [] := by
    rintro u (⟨a, b, ha, hb, rfl⟩ | ⟨c, hc, rfl⟩)
    · refine ⟨?_, by simp⟩
      simp only [List.getLast?_cons_cons, List.getLast?_singleton]
      intro he; injection he with he; subst he; revert hb; decide
    · refine ⟨?_, by simp⟩
      simp only [List.getLast?_singleton]
      intro he; injection he with he; subst he; revert hc; decide
  have ht : ∀ {t : Bytes}, RfcNameTail t → t = [] ∨ t.getLast? ≠ some (asc '.') ∧ t ≠ [] := by
    intro t h
    induction h with
    | nil => exact .inl rfl
    | @char u r h _ ih =>
      right
      rcases ih with rfl | ⟨h1, h2⟩
      · simpa using hu h
      · exact ⟨by rw [getLast?_append_ne_nil u h2]; exact h1, by simp [h2]⟩
    | @dot u r h _ ih =>
      right
      rcases ih with rfl | ⟨h1, h2⟩
      · refine ⟨?_, by simp⟩
        rw [List.append_nil, ← List.singleton_append, getLast?_append_ne_nil _ (hu h).2]; exact (hu h).1
      · exact ⟨by rw [getLast?_append_ne_nil _ h2]; exact h1, by simp⟩
  obtain ⟨u, r, h1, h2, rfl⟩ := h
  rcases ht h2 with rfl | ⟨h3, h4⟩
  · simpa using (hu h1).1
  · rw [getLast?_append_ne_nil u h4]; exact h3

/-- C37, refutation of the reading "valid by RFC 6570": `{a.}` and `{a:}` are no templates of RFC 6570 and are accepted without a
    warning; `{a:1000}` is one and is not. -/
theorem C37_rfc_refuted :
    (warnings (str "{a.}") = [] ∧ ∀ v, ¬ RfcVarSpec (str "a.") v) ∧
    (warnings (str "{a:}") = [] ∧ ∀ v, ¬ RfcVarSpec (str "a:") v) ∧
    ((∃ v, RfcVarSpec (str "a:1000") v) ∧ warnings (str "{a:1000}") ≠ []) := by
  have nameA : RfcVarName (str "a") := ⟨[asc 'a'], [], varChar_letter (by decide), .nil, rfl⟩
  have noColon : ∀ n : Bytes, RfcVarName n → asc ':' ∉ n := by
    have hu : ∀ {u : Bytes}, VarCharText u → asc ':' ∉ u := by
      rintro u (⟨a, b, ha, hb, rfl⟩ | ⟨c, hc, rfl⟩)
      · simp only [List.mem_cons, List.not_mem_nil, or_false]
        rintro (h | rfl | rfl)
        · exact absurd h (by decide)
        · revert ha; decide
        · revert hb; decide
      · simp only [List.mem_singleton]; rintro rfl; revert hc; decide
    have ht : ∀ {t : Bytes}, RfcNameTail t → asc ':' ∉ t := by
      intro t h
      induction h with
      | nil => simp
      | char h _ ih => simp [hu h, ih]
      | dot h _ ih =>
        simp only [List.cons_append, List.mem_cons, List.mem_append, not_or]
        exact ⟨by decide, hu h, ih⟩
    rintro n ⟨u, r, h1, h2, rfl⟩
    simp [hu h1, ht h2]
  refine ⟨⟨by decide +kernel, ?_⟩, ⟨by decide +kernel, ?_⟩, ⟨_, .limit nameA (ds := str "1000") ⟨asc '1', str "000", by decide, by decide, by decide, rfl⟩⟩, by decide +kernel⟩
  · intro v h
    generalize hs : str "a." = s at h
    cases h with
    | plain h => subst hs; exact rfcName_last h (by decide)
    | explode h => have := congrArg List.getLast? hs; rw [getLast?_append_ne_nil _ (by simp)] at this; exact absurd this (by decide)
    | limit h hd =>
      have : asc ':' ∈ str "a." := by rw [hs]; simp
      exact absurd this (by decide)
  · intro v h
    generalize hs : str "a:" = s at h
    cases h with
    | plain h => subst hs; exact noColon _ h (by decide)
    | explode h => have := congrArg List.getLast? hs; rw [getLast?_append_ne_nil _ (by simp)] at this; exact absurd this (by decide)
    | limit h hd =>
      obtain ⟨d, r, hd, -, hr, rfl⟩ := hd
      have := congrArg List.getLast? hs
      rw [getLast?_append_ne_nil _ (by simp), List.getLast?_cons_cons] at this
      have hm : asc ':' ∈ d :: r := List.mem_of_getLast? (this.symm.trans (by rfl))
      rcases List.mem_cons.1 hm with he | hm
      · subst he; revert hd; decide
      · exact absurd (hr _ hm) (by decide)

/-- A template with a literal, three kinds of expression and faults; no two parts are alike. -/
example : parseParts (str "/a{?b,c*}/%20{d:3,e f}~{/g") =
    [.literals (str "/a"), .expression ⟨.queryParam, [.variable ⟨str "b", 0, false⟩, .variable ⟨str "c", 0, true⟩], false⟩,
     .literals (str "/%20"), .expression ⟨.noop, [.variable ⟨str "d", 3, false⟩, .invalid (str "e f") 18], false⟩,
     .invalid (str "~") 22, .expression ⟨.path, [.variable ⟨str "g", 0, false⟩], true⟩] := by decide +kernel

example : (warnings (str "/a{?b,c*}/%20{d:3,e f}~{/g")).length = 4 := by decide +kernel

/-- A template without fault. -/
example : GoodTemplate (str "/a{?b,c*}/%20") := by rw [← C37_warnings]; decide +kernel

/-! ## C38 -/

/-- C38.  The suggested encoding is that of RFC 3986 exactly when no byte is below 16. -/
theorem C38_encoding_partial (s : Bytes) : encodeString s = percentEncode s ↔ ∀ c ∈ s, 16 ≤ c.toNat := encode_iff s

/-- C38, refutation: the suggestion for the byte 1 is `%1`, as in the warning for the variable `a<1>`. -/
theorem C38_encoding_refuted : encodeString [1] = str "%1" ∧ percentEncode [1] = str "%01" ∧
    (locate (match varspec (str "a" ++ [1]) with | some (_, r) => r | none => str "a" ++ [1])).2 = str "%1" := by decide +kernel

/-- C38.  A suggestion is the encoding of one character of the text, standing after the longest valid beginning. -/
theorem C38_suggestion (s : Bytes) (h : (locate s).2 ≠ []) : ∃ x r, Scalar x ∧ s = utf8 x ++ r ∧ (locate s).2 = encodeString (utf8 x) := by
  have char : ∀ m : Bytes × Bytes, (match peekUtf8 s with
      | none => (([], []) : Bytes × Bytes)
      | some (_, r) => (if s.take (s.length - r.length) = [asc '{'] then str "nested expression brace '{'"
          else str "character '" ++ s.take (s.length - r.length) ++ str "'", encodeString (s.take (s.length - r.length)))) = m →
      m.2 ≠ [] → ∃ x r, Scalar x ∧ s = utf8 x ++ r ∧ m.2 = encodeString (utf8 x) := by
    intro m hm hne
    split at hm
    · subst hm; exact absurd rfl hne
    · rename_i x r hp
      obtain ⟨h1, h2⟩ := peekUtf8_sound hp
      refine ⟨x, r, h1, h2, ?_⟩
      subst hm
      simp only
      rw [h2]; simp
  unfold locate at h ⊢
  dsimp only at h ⊢
  split at h
  · split at h
    · exact absurd rfl h
    · split at h
      · exact absurd rfl h
      · rename_i h1 h2
        rw [if_neg h1, if_neg h2]
        exact char _ rfl h
  · exact char _ rfl h

/-- Two bytes, one character. -/
example : (locate (str "" ++ [0xC3, 0xA9])).2 = str "%C3%A9" := by decide +kernel

end Verif.Props
