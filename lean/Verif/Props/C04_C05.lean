import Verif.Proof.YamlDoc
/-!
# C04, C05 – YAML output
-/
namespace Verif.Props
open Verif Verif.So Verif.Spec Verif.Spec.Yaml Verif.Yaml

/-- C04: for every sequence of Unicode scalar values, the double-quoted scalar emitted for its UTF-8 text is a quote, a
    body and a quote; the body is the UTF-8 text of printable characters none of which is a line break, and a YAML 1.2
    reader decodes it to the same text, whatever follows. -/
theorem C04_quoted_roundtrip (cs : List Nat) (h : ∀ c ∈ cs, Scalar c) :
    ∃ body out, quoted (utf8s cs) = 0x22 :: body ++ [0x22] ∧
      body = utf8s out ∧ (∀ d ∈ out, Printable d ∧ ¬ LineBreak d) ∧
      ∀ rest, readDq (body ++ 0x22 :: rest) = some (utf8s cs, rest) := by
  have hd := Verif.Utf8.decodeAll_utf8s cs h []
  rw [List.append_nil, Verif.Utf8.decodeAll_nil, List.append_nil] at hd
  obtain ⟨out, h1, h2⟩ := escape_printable cs h
  refine ⟨escape (utf8s cs), out, rfl, ?_, h2, fun rest => readDq_quoted _ ⟨cs, h, rfl⟩ rest⟩
  rw [escape, hd, h1]

/-- C04: different texts have different scalars. -/
theorem C04_quoted_injective (cs ds : List Nat) (h : ∀ c ∈ cs, Scalar c) (h' : ∀ c ∈ ds, Scalar c)
    (e : quoted (utf8s cs) = quoted (utf8s ds)) : utf8s cs = utf8s ds := by
  have e' : escape (utf8s cs) ++ [0x22] = escape (utf8s ds) ++ [0x22] := by simpa [quoted, asc] using e
  have a := readDq_quoted (utf8s cs) ⟨cs, h, rfl⟩ []
  have b := readDq_quoted (utf8s ds) ⟨ds, h', rfl⟩ []
  rw [e', b] at a
  simpa using a.symm

example : ∀ c ∈ [0x41, 0x0A, 0x22, 0x7F, 0x85, 0x2028, 0xFEFF, 0x1F600, 0], Scalar c := by decide
example : [0x41, 0x0A, 0x7F, 0xFEFF].flatMap escapeCp = str "A\\n\\x7F\\uFEFF" := by decide

/-- C05 (part): the emitted YAML document is read back as exactly the same tree.  The hypothesis `YamlOk` says that
    numbers are JSON numbers, strings are well-formed UTF-8 and no key is empty or one of the words null/true/false (in
    the three capitalisations of the YAML core schema).  Missing: those keys, for which the property is false, see
    `C05_boolean_key_refuted`, `C05_empty_key_refuted`. -/
theorem C05_yaml_roundtrip_partial (v : Value) (h : YamlOk v) : readYaml (serializeYaml v) = some v := readYaml_print v h

/-- C05: hence different trees have different YAML texts. -/
theorem C05_yaml_injective_partial (v w : Value) (hv : YamlOk v) (hw : YamlOk w) (h : serializeYaml v = serializeYaml w) :
    v = w := by
  have a := readYaml_print v hv
  have b := readYaml_print w hw
  rw [h, b] at a
  exact (Option.some.inj a).symm

/-- A non-trivial tree meeting the hypothesis. -/
def yamlSample : Value :=
  .obj [(str "a b", .arr [.num (str "-1.5e3"), .obj [], .arr [.arr [.str [0xC3, 0xA9, 0x0A]]]]),
        (str "key", .obj [(str "true-ish", .null)])]

example : YamlOk yamlSample := by
  have wf : ∀ s : String, (∀ c ∈ str s, c < 0x80) → WellFormed (str s) := by
    intro s h
    refine ⟨(str s).map (·.toNat), ?_, ascii_utf8 _ h⟩
    intro c hc
    obtain ⟨b, -, rfl⟩ := List.mem_map.1 hc
    left; have := b.toNat_lt; omega
  simp only [yamlSample, YamlOk, YamlOkM, YamlOkP, YamlOkE, and_true, true_and]
  refine ⟨⟨wf _ (by decide), by decide, by decide, ⟨[0xE9, 0x0A], by decide, by decide⟩⟩, wf _ (by decide), by decide,
    wf _ (by decide), by decide⟩

/-- C05 refuted: a member whose key is the string `true` is written as the plain key `true`, which YAML resolves to a
    boolean: it is not read back as the same tree. -/
theorem C05_boolean_key_refuted :
    serializeYaml (.obj [(str "true", .null)]) = str "true: null" ∧
    readYaml (str "true: null") ≠ some (.obj [(str "true", .null)]) := by
  refine ⟨by decide, ?_⟩
  have : readYaml (str "true: null") = none := by decide
  rw [this]; simp

/-- C05 refuted: a member with an empty key is written with no key text at all (a null key in YAML). -/
theorem C05_empty_key_refuted :
    serializeYaml (.obj [([], .tru)]) = str ": true" ∧ readYaml (str ": true") ≠ some (.obj [([], .tru)]) := by
  refine ⟨by decide, ?_⟩
  have : readYaml (str ": true") = none := by decide
  rw [this]; simp

end Verif.Props
