import Verif.Proof.ByteBuffer
/-!
# C12 – merging of source ranges; C13 – byte offsets to character offsets
-/
namespace Verif.Props
open Verif Verif.Spec Verif.ByteBuffer

/-- C12: after any history of appends the covered positions are exactly those of the appended sets, in order. -/
theorem C12_coverage (start : List Range) (history : List (List Range)) :
    positions (history.foldl append start) = positions start ++ history.flatMap positions := by
  induction history generalizing start with
  | nil => simp
  | cons h hs ih => rw [List.foldl_cons, ih, positions_append]; simp

/-- C12: one append either concatenates, or merges the last range with an *adjacent* first range; and it merges
    whenever they are adjacent. -/
theorem C12_merges_only_adjacent (a b : List Range) :
    (append a b = a ++ b ∧ ¬ ∃ a' x y b', a = a' ++ [x] ∧ b = y :: b' ∧ y.location = x.location + x.length) ∨
    (∃ a' x y b', a = a' ++ [x] ∧ b = y :: b' ∧ y.location = x.location + x.length ∧
      append a b = a' ++ ⟨x.location, x.length + y.length⟩ :: b') := append_cases a b

/-- C12: no history of appends of separated sets (single ranges are) leaves two adjacent ranges unmerged. -/
theorem C12_no_adjacent_left (history : List (List Range)) (h : ∀ s ∈ history, Separated s) :
    Separated (history.foldl append []) := by
  suffices ∀ start, Separated start → Separated (history.foldl append start) from this [] (by simp [Separated])
  induction history with
  | nil => intro s hs; simpa using hs
  | cons x xs ih =>
    intro s hs
    rw [List.foldl_cons]
    exact ih (fun y hy => h y (by simp [hy])) _ (separated_append _ _ hs (h x (by simp)))

/-- C12: the text a source map selects is the text of the covered positions, so merging never changes it. -/
theorem C12_text (history : List (List Range)) (buf : Bytes)
    (h : ∀ s ∈ history, ∀ r ∈ s, r.location + r.length ≤ buf.length) :
    mapBytesRangeSet (history.foldl append []) buf = (history.flatMap positions).filterMap (fun p => buf[p]?) := by
  have hb : ∀ (start : List Range), (∀ r ∈ start, r.location + r.length ≤ buf.length) →
      ∀ r ∈ history.foldl append start, r.location + r.length ≤ buf.length := by
    induction history with
    | nil => intro s hs; simpa using hs
    | cons x xs ih =>
      intro s hs
      rw [List.foldl_cons]
      apply ih (fun y hy => h y (by simp [hy]))
      have hx := h x (by simp)
      rcases append_cases s x with ⟨he, -⟩ | ⟨a', p, q, b', rfl, rfl, hadj, he⟩
      · rw [he]; intro r hr; rcases List.mem_append.1 hr with hr | hr
        · exact hs r hr
        · exact hx r hr
      · rw [he]; intro r hr
        rcases List.mem_append.1 hr with hr | hr
        · exact hs r (by simp [hr])
        rcases List.mem_cons.1 hr with rfl | hr
        · have := hx q (by simp); simp only; omega
        · exact hx r (by simp [hr])
  have key : ∀ rs : List Range, (∀ r ∈ rs, r.location + r.length ≤ buf.length) →
      mapBytesRangeSet rs buf = (positions rs).filterMap (fun p => buf[p]?) := by
    intro rs hrs
    unfold mapBytesRangeSet
    split
    · rename_i he
      have : buf = [] := by simpa using he
      subst this; simp
    · rw [mapLoop_ok buf rs hrs]
      simp only [List.nil_append, positions]
      rw [List.filterMap_flatMap]
      induction rs with
      | nil => rfl
      | cons r rs ih =>
        rw [List.flatMap_cons, List.flatMap_cons, slice_cover _ _ _ (hrs r (by simp)), ih (fun x hx => hrs x (by simp [hx]))]
  rw [key _ (hb [] (by simp)), C12_coverage]
  simp [positions]

example : [[⟨0, 3⟩], [⟨3, 2⟩], [⟨9, 1⟩], [⟨10, 0⟩, ⟨4, 1⟩]].foldl append [] = [⟨0, 5⟩, ⟨9, 1⟩, ⟨4, 1⟩] := by decide

/-- C13: for every text (without NUL) the index has one entry per byte, and the entry of each byte of the `k`-th
    character is `k`. -/
theorem C13_index_partial (cs : List Nat) (h : ∀ c ∈ cs, Scalar c ∧ c ≠ 0) :
    ∃ index, buildCharacterIndex (utf8s cs) = some index ∧ index.length = (utf8s cs).length ∧
      ∀ k p, k < cs.length → byteOffset cs k ≤ p → p < byteOffset cs (k + 1) → index[p]? = some k :=
  ⟨indexFrom 0 cs, buildLoop_text cs h 0, indexFrom_length cs 0, fun k p hk h1 h2 => by
    simpa using indexFrom_get cs 0 k p hk h1 h2⟩

/-- C13: for every text (without NUL) and every byte range that starts at a character `a` and ends after character
    `b - 1`, or beyond the end of the text, the index conversion gives the character range. -/
theorem C13_range_by_index_partial (cs : List Nat) (h : ∀ c ∈ cs, Scalar c ∧ c ≠ 0) (a b : Nat) (ha : a < cs.length)
    (hab : a ≤ b) (hb : b ≤ cs.length) (over : Nat) (hover : over = 0 ∨ b = cs.length) :
    (buildCharacterIndex (utf8s cs)).bind
      (toCharactersByIndex ⟨byteOffset cs a, byteOffset cs b - byteOffset cs a + over⟩) = some ⟨a, b - a⟩ := by
  rw [buildCharacterIndex, buildLoop_text cs h 0, Option.bind_some, toCharactersByIndex]
  have hend : byteOffset cs cs.length = (utf8s cs).length := byteOffset_length cs _ (Nat.le_refl _)
  have h0 : byteOffset cs a < (utf8s cs).length := by rw [← hend]; exact byteOffset_lt' cs a _ ha ha
  have hmono := byteOffset_mono cs a b hab
  have hmono' := byteOffset_mono cs b _ hb
  have hne : (indexFrom 0 cs).isEmpty = false := by
    rw [Bool.eq_false_iff]; intro he
    have : indexFrom 0 cs = [] := by simpa using he
    have := congrArg List.length this
    rw [indexFrom_length, List.length_nil] at this; omega
  rw [hne, indexFrom_length]
  have hloc : (if byteOffset cs a > 0 then (indexFrom 0 cs)[byteOffset cs a]? else some 0) = some a := by
    split
    · have := indexFrom_get cs 0 a (byteOffset cs a) ha (Nat.le_refl _) (byteOffset_lt cs a ha)
      simpa using this
    · rename_i hz
      cases a with
      | zero => rfl
      | succ a => have := byteOffset_lt' cs 0 (a+1) (by omega) (by omega); omega
  simp only [Bool.false_eq_true, if_false]
  rw [hloc]
  simp only [Option.bind_some]
  have hlast : (indexFrom 0 cs)[(utf8s cs).length - 1]? = some (cs.length - 1) := by
    have hlt := byteOffset_lt cs (cs.length - 1) (by omega)
    rw [show cs.length - 1 + 1 = cs.length by omega, hend] at hlt
    have := indexFrom_get cs 0 (cs.length - 1) ((utf8s cs).length - 1) (by omega) (by omega)
      (by rw [show cs.length - 1 + 1 = cs.length by omega, hend]; omega)
    simpa using this
  by_cases hb' : b = cs.length
  · subst hb'
    rw [hend]
    have e1 : (if byteOffset cs a + ((utf8s cs).length - byteOffset cs a + over) > (utf8s cs).length then
        (utf8s cs).length - byteOffset cs a else (utf8s cs).length - byteOffset cs a + over) = (utf8s cs).length - byteOffset cs a := by
      split <;> omega
    rw [e1, if_pos (by omega), if_pos (by omega), hlast]
    simp; omega
  · have hov : over = 0 := by rcases hover with h | h; exact h; exact absurd h hb'
    subst hov
    have hlt : byteOffset cs b < (utf8s cs).length := by rw [← hend]; exact byteOffset_lt' cs b _ (by omega) (by omega)
    have e1 : (if byteOffset cs a + (byteOffset cs b - byteOffset cs a + 0) > (utf8s cs).length then
        (utf8s cs).length - byteOffset cs a else byteOffset cs b - byteOffset cs a + 0) = byteOffset cs b - byteOffset cs a + 0 := by
      rw [if_neg (by omega)]
    rw [e1]
    by_cases hz : byteOffset cs b - byteOffset cs a + 0 > 0
    · have hab' : byteOffset cs a + (byteOffset cs b - byteOffset cs a + 0) = byteOffset cs b := by omega
      rw [if_pos hz, hab', if_neg (by omega)]
      have := indexFrom_get cs 0 b (byteOffset cs b) (by omega) (Nat.le_refl _) (byteOffset_lt cs b (by omega))
      rw [this]; simp
    · rw [if_neg hz]
      have : a = b := by
        rcases Nat.lt_or_ge a b with hlt' | hge
        · have := byteOffset_lt' cs a b hlt' ha; omega
        · omega
      subst this; simp

/-- C13: the same for the conversion that scans the buffer; here also the end of the text is a valid start. -/
theorem C13_range_by_buffer_partial (cs : List Nat) (h : ∀ c ∈ cs, Scalar c ∧ c ≠ 0) (hne : cs ≠ []) (a b : Nat)
    (hab : a ≤ b) (hb : b ≤ cs.length) (over : Nat) (hover : over = 0 ∨ b = cs.length) :
    toCharactersByBuffer ⟨byteOffset cs a, byteOffset cs b - byteOffset cs a + over⟩ (utf8s cs) = some ⟨a, b - a⟩ := by
  have hmono := byteOffset_mono cs a b hab
  have hmono' := byteOffset_mono cs b _ hb
  have hend : byteOffset cs cs.length = (utf8s cs).length := byteOffset_length cs _ (Nat.le_refl _)
  have hnil : (utf8s cs).isEmpty = false := by
    cases cs with
    | nil => exact absurd rfl hne
    | cons c cs => have := utf8_pos c; cases hu : utf8 c with
      | nil => simp [hu] at this
      | cons => simp [utf8s, hu]
  rw [toCharactersByBuffer, hnil]
  simp only [Bool.false_eq_true, if_false]
  have hloc : (if byteOffset cs a > 0 then strnlenUtf8 (utf8s cs) (byteOffset cs a) else some 0) = some a := by
    split
    · rename_i hz
      rw [strnlenUtf8, if_neg (by omega), strnlenLoop_text cs h [0] a 0 (by omega) (by simp)]; simp
    · rename_i hz
      cases a with
      | zero => rfl
      | succ a => have := byteOffset_lt' cs 0 (a+1) (by omega) (by omega); omega
  rw [hloc]
  have hsplit : utf8s cs = utf8s (cs.take a) ++ utf8s (cs.drop a) := by
    rw [utf8s, utf8s, utf8s, ← List.flatMap_append, List.take_append_drop]
  have hdrop : (utf8s cs).drop (byteOffset cs a) = utf8s (cs.drop a) := by
    rw [byteOffset]; conv => lhs; rw [hsplit]
    exact List.drop_left
  have hd : ∀ c ∈ cs.drop a, Scalar c ∧ c ≠ 0 := fun c hc => h c (List.mem_of_mem_drop hc)
  have hlen : byteOffset cs b = byteOffset cs a + byteOffset (cs.drop a) (b - a) := by
    unfold byteOffset
    have : cs.take b = cs.take a ++ (cs.drop a).take (b - a) := by
      rw [← List.take_add, Nat.add_sub_cancel' hab]
    rw [this, utf8s, List.flatMap_append, List.length_append]; rfl
  simp only [Option.bind_some]
  by_cases hz : byteOffset cs b - byteOffset cs a + over > 0
  · rw [if_pos hz, if_neg (by omega), hdrop, strnlenUtf8, if_neg (by omega)]
    rcases hover with rfl | rfl
    · rw [show byteOffset cs b - byteOffset cs a + 0 = byteOffset (cs.drop a) (b - a) by omega,
        strnlenLoop_text _ hd [0] (b - a) 0 (by simp; omega) (by simp)]
      simp
    · rw [strnlenLoop_over _ hd _ _ (by
        have := byteOffset_length (cs.drop a) (cs.length - a) (by simp)
        omega)]
      simp
  · rw [if_neg hz]
    have : a = b := by
      rcases Nat.lt_or_ge a b with hlt' | hge
      · have := byteOffset_lt' cs a b hlt' (by omega); omega
      · omega
    subst this; simp

/-- "aé€😀": the second to third character. -/
example : (∀ c ∈ [97, 233, 0x20AC, 0x1F600], Scalar c ∧ c ≠ 0) ∧
    byteOffset [97, 233, 0x20AC, 0x1F600] 1 = 1 ∧ byteOffset [97, 233, 0x20AC, 0x1F600] 3 = 6 := by decide

/-- C13 refuted: building the index writes beyond its buffer *exactly* for the sources whose last unit is cut off. -/
theorem C13_index_overflow_refuted (s : Bytes) : buildCharacterIndex s = none ↔ TruncatedTail s :=
  buildLoop_none s.length s (Nat.le_refl _) 0

/-- Such sources exist: "a", then the first byte of a three-byte character. -/
example : TruncatedTail [97, 0xE2] := ⟨[[97]], 0xE2, [], rfl, by simp [announced], by decide, by decide⟩

/-- C13 refuted: counting characters up to a position of such a source reads beyond the terminator, here for the
    position of the tabulator in `E2 09`, the conversion that the check for tabulators applies. -/
theorem C13_scan_overflow_refuted : toCharactersByBuffer ⟨1, 1⟩ [0xE2, 0x09] = none := by
  simp [toCharactersByBuffer, strnlenUtf8, strnlenLoop, charLen]

/-- C13 refuted: a range that starts at the end of the source reads one entry beyond the index, whatever the text. -/
theorem C13_end_of_source_refuted (cs : List Nat) (h : ∀ c ∈ cs, Scalar c ∧ c ≠ 0) (hne : cs ≠ []) (len : Nat) :
    (buildCharacterIndex (utf8s cs)).bind (toCharactersByIndex ⟨byteOffset cs cs.length, len⟩) = none := by
  rw [buildCharacterIndex, buildLoop_text cs h 0, Option.bind_some, toCharactersByIndex]
  have hend : byteOffset cs cs.length = (utf8s cs).length := byteOffset_length cs _ (Nat.le_refl _)
  have hpos : 0 < (utf8s cs).length := by
    cases cs with
    | nil => exact absurd rfl hne
    | cons c cs => have := utf8_pos c; simp [utf8s]; omega
  have hne' : (indexFrom 0 cs).isEmpty = false := by
    rw [Bool.eq_false_iff]; intro he
    have : indexFrom 0 cs = [] := by simpa using he
    have := congrArg List.length this
    rw [indexFrom_length, List.length_nil] at this; omega
  rw [hne', hend, indexFrom_length]
  simp only [Bool.false_eq_true, if_false, if_pos hpos]
  rw [List.getElem?_eq_none (by rw [indexFrom_length])]
  rfl

end Verif.Props
