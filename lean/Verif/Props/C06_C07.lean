import Verif.Proof.Utf8
/-!
# C06, C07 – UTF-8
-/
namespace Verif.Props
open Verif Verif.Spec Verif.Utf8

/-- C06: decoding well-formed UTF-8 yields exactly its sequence of code points. -/
theorem C06_decode_wellformed (cs : List Nat) (h : ∀ c ∈ cs, Scalar c) : decodeAll (utf8s cs) = cs := by
  have := decodeAll_utf8s cs h []
  simpa [decodeAll_nil] using this

/-- C06: encoding a scalar value gives its RFC 3629 encoding, and decoding that (whatever follows) gives it back. -/
theorem C06_encode_decode (c : Nat) (h : Scalar c) (rest : Bytes) :
    ∃ bs, encode c = some bs ∧ bs = utf8 c ∧ decodeOne (bs ++ rest) = (c, rest) :=
  ⟨_, encode_utf8 c (cond c h).1, rfl, decodeOne_utf8 c h rest⟩

/-- C06: decode followed by encode returns the original bytes of every well-formed text. -/
theorem C06_decode_encode (bs : Bytes) (h : WellFormed bs) :
    (decodeAll bs).mapM encode = some ((decodeAll bs).map utf8) ∧ utf8s (decodeAll bs) = bs := by
  obtain ⟨cs, hcs, rfl⟩ := h
  rw [C06_decode_wellformed cs hcs]
  refine ⟨?_, rfl⟩
  induction cs with
  | nil => rfl
  | cons c cs ih =>
    have ih := ih (fun d hd => hcs d (by simp [hd]))
    simp [List.mapM_cons, encode_utf8 c (cond c (hcs c (by simp))).1, ih]

/-- The specification's encoder agrees with Lean's own UTF-8 encoder on every character. -/
theorem C06_spec_is_utf8 (c : Char) : utf8 c.toNat = String.utf8EncodeChar c := by
  have hv := c.valid
  have hlt : c.toNat < 0x110000 := by
    rcases hv with h | h <;> (have : c.toNat = c.val.toNat := rfl) <;> omega
  have e : c.val.toNat = c.toNat := rfl
  unfold utf8 String.utf8EncodeChar
  simp only [e]
  split
  · rw [if_pos (by omega)]
  split
  · rw [if_neg (by omega), if_pos (by omega)]
    congr 1
    · apply UInt8.toNat_inj.1; simp [Nat.toUInt8]; omega
    · congr 1
      apply UInt8.toNat_inj.1; simp [Nat.toUInt8]; omega
  split
  · rw [if_neg (by omega), if_neg (by omega), if_pos (by omega)]
    congr 1
    · apply UInt8.toNat_inj.1; simp [Nat.toUInt8]; omega
    · congr 1
      · apply UInt8.toNat_inj.1; simp [Nat.toUInt8]; omega
      · congr 1
        apply UInt8.toNat_inj.1; simp [Nat.toUInt8]; omega
  · rw [if_neg (by omega), if_neg (by omega), if_neg (by omega)]
    congr 1
    · apply UInt8.toNat_inj.1; simp [Nat.toUInt8]; omega
    · congr 1
      · apply UInt8.toNat_inj.1; simp [Nat.toUInt8]; omega
      · congr 1
        · apply UInt8.toNat_inj.1; simp [Nat.toUInt8]; omega
        · congr 1
          apply UInt8.toNat_inj.1; simp [Nat.toUInt8]; omega

/-- Non-vacuity: a text with one character of each length. -/
example : WellFormed [0x41, 0xC3, 0xA9, 0xE2, 0x82, 0xAC, 0xF0, 0x9F, 0x98, 0x80] :=
  ⟨[0x41, 0xE9, 0x20AC, 0x1F600], by decide, by decide⟩

/-- C07: the decoder never reads past the end of its input. -/
theorem C07_no_read_past_end (s : Bytes) : decodeOneChk s = some (decodeOne s) := decodeOneChk_eq s

/-- C07: each step on non-empty input consumes at least one byte, so every input is consumed in finitely many steps;
    it yields at most one code point per byte and only Unicode scalar values (hence output that can be re-encoded). -/
theorem C07_total_and_scalar (s : Bytes) :
    (s ≠ [] → (decodeOne s).2.length < s.length) ∧ (decodeAll s).length ≤ s.length ∧ (∀ c ∈ decodeAll s, Scalar c) := by
  refine ⟨?_, decodeAll_length s, decodeAll_scalar s⟩
  cases s with
  | nil => simp
  | cons a r => exact fun _ => decodeOne_length a r

/-- C07: the well-formed text before a malformed sequence is never disturbed. -/
theorem C07_prefix_preserved (cs : List Nat) (h : ∀ c ∈ cs, Scalar c) (junk : Bytes) :
    decodeAll (utf8s cs ++ junk) = cs ++ decodeAll junk := decodeAll_utf8s cs h junk

/-- C07 (part): on input made of units in which each lead byte is followed by the announced number of continuation
    bytes, the output is U+FFFD exactly for the units that are not well-formed and the scalar value for the others.
    Missing: inputs with stray or missing continuation bytes and lead bytes F8–FF – the property is false there, see
    `C07_swallows_refuted`, `C07_misreads_lead_refuted`, `C07_stray_refuted`. -/
theorem C07_framed_partial (us : List Bytes) (hu : ∀ u ∈ us, FramedUnit u) (rest : Bytes) :
    ∃ cs, decodeAll (us.flatten ++ rest) = cs ++ decodeAll rest ∧ Pairwise2 UnitMeaning us cs :=
  framed_decodeAll us hu rest

example : ∀ u ∈ [[0xC1, 0x81], [0x41], [0xED, 0xA0, 0x80], [0xF4, 0x90, 0x80, 0x80]], FramedUnit u := by
  intro u hu
  simp at hu
  rcases hu with rfl | rfl | rfl | rfl
  · exact Or.inr (Or.inl ⟨_, _, by decide, by decide, ⟨by decide, by decide⟩, rfl⟩)
  · exact Or.inl ⟨_, by decide, rfl⟩
  · exact Or.inr (Or.inr (Or.inl ⟨_, _, _, by decide, by decide, ⟨by decide, by decide⟩, ⟨by decide, by decide⟩, rfl⟩))
  · exact Or.inr (Or.inr (Or.inr ⟨_, _, _, _, by decide, by decide, ⟨by decide, by decide⟩, ⟨by decide, by decide⟩, ⟨by decide, by decide⟩, rfl⟩))

/-- C07 refuted: a truncated two-byte sequence followed by a quote is read as U+00E2; the well-formed quote is
    swallowed and no replacement character appears. -/
theorem C07_swallows_refuted : ∃ junk next, WellFormed next ∧ (¬ ∃ pre, decodeAll (junk ++ next) = pre ++ decodeAll next) ∧
    0xFFFD ∉ decodeAll (junk ++ next) ∧ junk = [0xC3] := by
  refine ⟨[0xC3], [0x22], ⟨[0x22], by decide, by decide⟩, ?_, ?_, rfl⟩
  · have e1 : decodeAll ([0xC3] ++ [0x22]) = [0xE2] := by
      simp [decodeAll, decodeOne]
    have e2 : decodeAll [0x22] = [0x22] := by simp [decodeAll, decodeOne]
    rw [e1, e2]
    rintro ⟨pre, h⟩
    have := congrArg List.getLast? h
    simp at this
  · have e1 : decodeAll ([0xC3] ++ [0x22]) = [0xE2] := by
      simp [decodeAll, decodeOne]
    rw [e1]; decide

/-- C07 refuted: the byte F9, which is not allowed in UTF-8 at all, is accepted as the lead byte of U+40000. -/
theorem C07_misreads_lead_refuted : decodeAll [0xF9, 0x80, 0x80, 0x80] = [0x40000] := by
  simp [decodeAll, decodeOne]

/-- C07 refuted: a stray continuation byte starts a two-byte sequence: 0x82 0x41 is read as U+0081. -/
theorem C07_stray_refuted : decodeAll [0x82, 0x41] = [0x81] := by
  simp [decodeAll, decodeOne]

end Verif.Props
