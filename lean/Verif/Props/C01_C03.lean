import Verif.Proof.Json
/-!
# C01–C03 – JSON output
-/
namespace Verif.Props
open Verif Verif.So Verif.Spec Verif.Spec.Json Verif.Json

/-- C01: the emitted JSON text (packed or pretty) is read back by a JSON reader as exactly the same tree.
    Hypothesis: the number texts in the tree are JSON numbers (see C10). -/
theorem C01_json_roundtrip (packed : Bool) (v : Value) (h : NumbersOk v) :
    readJson (serializeJson packed v) = some v := by
  have hn := need_le packed v h 0
  have := read_print packed v h 0 (2 * (print packed 0 v).length) (by omega) [] (by intro c hc; simp at hc)
  rw [List.append_nil] at this
  simp [readJson, serializeJson, this, skipWs]

/-- C01: in particular two different trees never have the same JSON text. -/
theorem C01_json_injective (p q : Bool) (v w : Value) (hv : NumbersOk v) (hw : NumbersOk w)
    (h : serializeJson p v = serializeJson q w) : v = w := by
  have a := C01_json_roundtrip p v hv
  have b := C01_json_roundtrip q w hw
  rw [h, b] at a
  exact (Option.some.inj a).symm

/-- A non-trivial tree meeting the hypothesis. -/
def sampleTree : Value :=
  .obj [(str "a\n\"b", .arr [.num (str "-1.5e3"), .obj [], .arr [], .str [0, 31, 127, 200, 34, 92]]), ([], .tru),
        (str "k", .obj [(str "x", .null), (str "x", .fls)])]

example : NumbersOk sampleTree := by
  simp only [sampleTree, NumbersOk, NumbersOkM, NumbersOkP, NumbersOkE, and_true, true_and]
  decide

/-- C02: an emitted string literal is a quote, a body and a quote; the body has no control character, every quote in
    it is escaped (the reader stops only at the final quote), and unescaping it gives the original octets, whatever
    text follows. -/
theorem C02_json_string_literal (s : Bytes) :
    ∃ body, quoted s = 0x22 :: body ++ [0x22] ∧ (∀ b ∈ body, 0x20 ≤ b) ∧
      ∀ rest, readString none (body ++ 0x22 :: rest) = some (s, rest) := by
  refine ⟨escape s, rfl, ?_, readString_escape s⟩
  intro b hb
  simp only [escape, List.mem_flatMap] at hb
  obtain ⟨c, -, hb⟩ := hb
  have : ∀ c : UInt8, ∀ b ∈ escapeByte c, 0x20 ≤ b := forallU8 (by decide +kernel)
  exact this c b hb

example : quoted [0x22, 0x0A, 0x01, 0x41] = str "\"\\\"\\n\\u0001A\"" := by decide

/-- C03: the packed text is the pretty text without the white space outside string literals … -/
theorem C03_packed_is_stripped_pretty (v : Value) (h : NumbersOk v) :
    stripWs .outside (serializeJson false v) = serializeJson true v := by
  have := strip_print false v h 0 []
  simpa [stripWs, serializeJson] using this

/-- … the packed text has no such white space … -/
theorem C03_packed_has_no_ws (v : Value) (h : NumbersOk v) :
    stripWs .outside (serializeJson true v) = serializeJson true v := by
  have := strip_print true v h 0 []
  simpa [stripWs, serializeJson] using this

/-- … and both denote the same value. -/
theorem C03_same_value (v : Value) (h : NumbersOk v) :
    readJson (serializeJson true v) = readJson (serializeJson false v) := by
  rw [C01_json_roundtrip true v h, C01_json_roundtrip false v h]

example : serializeJson true sampleTree ≠ serializeJson false sampleTree := by decide

end Verif.Props
