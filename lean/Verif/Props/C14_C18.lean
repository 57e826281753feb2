import Verif.Proof.Api
/-!
# C14–C18: the C API, parse results, options, source check and warnings
-/
namespace Verif.Props
open Verif Verif.Spec Verif.Refract Verif.Api Verif.ByteBuffer Verif.Lines

/-! ## C18 -/

/-- C18: whatever warnings are given, in whatever order, the context holds each distinct one once, in the order of first
    occurrence. -/
theorem C18_once (calls : List Annotation) : FirstOccurrences calls (calls.foldl warn []) := warn_first calls

/-- C18: that description has exactly one solution. -/
theorem C18_unique (calls a b : List Annotation) (ha : FirstOccurrences calls a) (hb : FirstOccurrences calls b) : a = b := by
  obtain ⟨a1, a2, a3⟩ := ha
  obtain ⟨b1, b2, b3⟩ := hb
  have hp : a.Perm b := (List.perm_ext_iff_of_nodup a1 b1).2 (fun x => (a2 x).trans (b2 x).symm)
  exact List.Perm.eq_of_pairwise (fun x y _ _ h1 h2 => absurd h1 (by omega)) a3 b3 hp

/-- Three calls, one repeated: two warnings are kept. -/
example : [⟨[⟨0, 1⟩], 5, str "a"⟩, ⟨[⟨0, 2⟩], 5, str "a"⟩, ⟨[⟨0, 1⟩], 5, str "a"⟩].foldl warn [] =
    [⟨[⟨0, 1⟩], 5, str "a"⟩, ⟨[⟨0, 2⟩], 5, str "a"⟩] := by decide

/-! ## C17 -/

/-- C17 (well-formed sources): a source with a tab always fails with the business error, at the character position of
    the first tab; without tab and with a carriage return, at that of the first carriage return.  Missing: malformed
    UTF-8, where the position may not be computable (`C17_malformed_refuted`). -/
theorem C17_rejected_partial (env : Env) (cs : List Nat) (h : ∀ c ∈ cs, Scalar c ∧ c ≠ 0) (name : Bool) :
    (9 ∈ cs → ∃ msg, scParse env (utf8s cs) name = some ⟨⟨[⟨cs.idxOf 9, 1⟩], 2, msg⟩, []⟩) ∧
    (9 ∉ cs → 13 ∈ cs → ∃ msg, scParse env (utf8s cs) name = some ⟨⟨[⟨cs.idxOf 13, 1⟩], 2, msg⟩, []⟩) := by
  have hs : ∀ c ∈ cs, Scalar c := fun c hc => (h c hc).1
  have key : ∀ x, x ∈ cs → x = 9 ∨ x = 13 → toCharactersByBuffer ⟨byteOffset cs (cs.idxOf x), 1⟩ (utf8s cs) = some ⟨cs.idxOf x, 1⟩ := by
    intro x hx hx'
    have hlt := List.idxOf_lt_length_iff.2 hx
    have hr := C13_range_by_buffer_partial cs h (by rintro rfl; simp at hx) (cs.idxOf x) (cs.idxOf x + 1) (by omega) (by omega) 0 (.inl rfl)
    have hlen : byteOffset cs (cs.idxOf x + 1) = byteOffset cs (cs.idxOf x) + 1 := by
      unfold byteOffset
      rw [List.take_succ_eq_append_getElem hlt, List.getElem_idxOf hlt]
      simp only [utf8s, List.flatMap_append, List.flatMap_cons, List.flatMap_nil, List.append_nil, List.length_append]
      rcases hx' with rfl | rfl <;> rfl
    rw [hlen] at hr
    simpa using hr
  have h9 := findByte_utf8s 9 (by decide) cs hs
  have h13 := findByte_utf8s 13 (by decide) cs hs
  rw [findIdx_first] at h9 h13
  simp only [UInt8.reduceToNat] at h9 h13
  constructor
  · intro ht
    refine ⟨tabMessage, ?_⟩
    rw [if_pos ht] at h9
    simp only [scParse, checkSource, h9, Option.map_some, key 9 ht (.inl rfl), Option.bind_some]
  · intro ht hc
    refine ⟨crMessage, ?_⟩
    rw [if_neg ht] at h9
    rw [if_pos hc] at h13
    simp only [scParse, checkSource, h9, h13, Option.map_some, Option.map_none, key 13 hc (.inr rfl), Option.bind_some]

/-- C17: for all byte strings, well-formed or not, without tab and carriage return nothing is rejected here: the result
    is that of the parser. -/
theorem C17_accepted (env : Env) (src : Bytes) (name : Bool) (h9 : 9 ∉ src) (h13 : 13 ∉ src) (hne : src ≠ [])
    (ht : (env.parser src name).thrown = none) : scParse env src name = some (env.parser src name).report := by
  have f : ∀ b, b ∉ src → findByte src b = none := by
    intro b hb
    rw [findByte, List.findIdx?_eq_none_iff]
    intro x hx; simp only [beq_eq_false_iff_ne]; rintro rfl; exact hb hx
  have : src.isEmpty = false := by cases src <;> simp_all
  simp [scParse, checkSource, f 9 h9, f 13 h13, this, ht]

/-- C17, C15: the outcome for every other source.  An empty source is fine and gives no warning, without running the parser.
    Otherwise the warnings are those the parser gave, also if it then throws; the error is the one it reported, or the one it
    threw, or, for other exceptions, the application error (code 1) with the text of the exception. -/
theorem C17_outcome (env : Env) (src : Bytes) (name : Bool) (h9 : 9 ∉ src) (h13 : 13 ∉ src) :
    ∃ r, scParse env src name = some r ∧
      (src = [] → r.error.code = 0 ∧ r.warnings = []) ∧
      (src ≠ [] → r.warnings = (env.parser src name).report.warnings ∧
        ((env.parser src name).thrown = none → r.error = (env.parser src name).report.error) ∧
        (∀ e, (env.parser src name).thrown = some (.error e) → r.error = e) ∧
        (∀ w, (env.parser src name).thrown = some (.std w) → r.error = ⟨[], 1, str "parser exception: '" ++ w ++ str "'"⟩) ∧
        ((env.parser src name).thrown = some .other → r.error = ⟨[], 1, str "parser exception has occurred"⟩)) := by
  have f : ∀ b, b ∉ src → findByte src b = none := by
    intro b hb
    rw [findByte, List.findIdx?_eq_none_iff]
    intro x hx; simp only [beq_eq_false_iff_ne]; rintro rfl; exact hb hx
  by_cases he : src = []
  · subst he
    exact ⟨⟨.ok, []⟩, by simp [scParse, checkSource, f 9 h9, f 13 h13], fun _ => ⟨rfl, rfl⟩, fun h => absurd rfl h⟩
  · have : src.isEmpty = false := by cases src <;> simp_all
    simp only [scParse, checkSource, f 9 h9, f 13 h13, this, Option.bind_some, Bool.false_eq_true, ↓reduceIte, he, false_implies,
      true_and]
    cases ht : (env.parser src name).thrown with
    | none => exact ⟨_, rfl, by simp⟩
    | some t => cases t <;> exact ⟨_, rfl, by simp⟩

/-- C17: for all byte strings with a tab or carriage return the parser proper is never run: what it would do does not
    matter. -/
theorem C17_not_parsed (env env' : Env) (src : Bytes) (name name' : Bool) (h : 9 ∈ src ∨ 13 ∈ src) :
    scParse env src name = scParse env' src name' := by
  have f : ∀ b, b ∈ src → ∃ k, findByte src b = some k := by
    intro b hb
    cases hf : findByte src b with
    | some k => exact ⟨k, rfl⟩
    | none =>
      rw [findByte, List.findIdx?_eq_none_iff] at hf
      have := hf b hb
      simp at this
  have hc : checkSource src = none ∨ ∃ e, checkSource src = some (some e) := by
    unfold checkSource
    cases h9 : findByte src 9 with
    | some k =>
      simp only
      cases toCharactersByBuffer ⟨k, 1⟩ src with
      | none => exact .inl rfl
      | some r => exact .inr ⟨_, rfl⟩
    | none =>
      simp only
      rcases h with h | h
      · obtain ⟨k, hk⟩ := f 9 h; rw [hk] at h9; simp at h9
      · obtain ⟨k, hk⟩ := f 13 h
        rw [hk]; simp only
        cases toCharactersByBuffer ⟨k, 1⟩ src with
        | none => exact .inl rfl
        | some r => exact .inr ⟨_, rfl⟩
  rcases hc with hc | ⟨e, hc⟩ <;> simp [scParse, hc]

/-- C17 is false for malformed sources: two bytes, the first announcing three, and a tab: the computation of the
    position reads beyond the end of the source. -/
theorem C17_malformed_refuted (env : Env) (name : Bool) : scParse env [0xE2, 9] name = none := by
  have : checkSource [0xE2, 9] = none := by
    have h : findByte [0xE2, 9] 9 = some 1 := by decide
    simp only [checkSource, h, C13_scan_overflow_refuted]; rfl
  simp [scParse, this]

/-- "# é", newline, tab: the hypotheses are met and the position is 4. -/
example : (∀ c ∈ [35, 32, 233, 10, 9], Scalar c ∧ c ≠ 0) ∧ 9 ∈ [35, 32, 233, 10, 9] ∧ [35, 32, 233, 10, 9].idxOf 9 = 4 := by
  decide

/-! ## C15 -/

/-- C15: the content of every parse result, for all reports of the parser and all outcomes of the conversion: the
    category iff the parser reported no error and the conversion succeeded, then the error annotation iff the resulting code is
    not 0, then the warnings of the parser and the distinct warnings of the conversion, each showing its code, message and
    ranges. -/
theorem C15_content (lines : List Nat) (report : Report) (c : Converted) (e : Elem) (report' : Report)
    (h : wrapRefract lines report c = .ok (e, report')) :
    e.name = str "parseResult" ∧ ∃ category error warnings warned,
      e.data = .array (category ++ error ++ warnings) ∧
      (category = [] ∨ ∃ x, category = [x]) ∧
      (∀ x, category = [x] ↔ report.error.code = 0 ∧ c.result = .ok x) ∧
      error.map shown = (if report'.error.code = 0 then [] else [some (toShow (str "error") report'.error)]) ∧
      warnings.map shown = (report.warnings ++ warned).map (fun w => some (toShow (str "warning") w)) ∧
      (if report.error.code = 0 then FirstOccurrences c.warned warned else warned = []) := by
  obtain ⟨blueprint, warned, err, ws, hc, hw', rfl, h0, h1, hws⟩ := wrap_pieces lines report c e report' h
  refine ⟨rfl, blueprint, err, ws, warned, rfl, ?_, ?_, ?_, ?_, ?_⟩
  · unfold convert at hc
    split at hc
    · cases hr : c.result with
      | ok x => rw [hr] at hc; simp only [Run.ok.injEq, Prod.mk.injEq] at hc; exact .inr ⟨x, hc.2.1.symm⟩
      | error t =>
        rw [hr] at hc
        cases t <;> simp only [Run.ok.injEq, Prod.mk.injEq, reduceCtorEq] at hc <;> exact .inl hc.2.1.symm
    · simp only [Run.ok.injEq, Prod.mk.injEq] at hc; exact .inl hc.2.1.symm
  · intro x
    unfold convert at hc
    split at hc
    · rename_i hz
      cases hr : c.result with
      | ok y => rw [hr] at hc; simp only [Run.ok.injEq, Prod.mk.injEq] at hc; rw [← hc.2.1]; simp [hz]
      | error t =>
        rw [hr] at hc
        cases t <;> simp only [Run.ok.injEq, Prod.mk.injEq, reduceCtorEq] at hc <;> rw [← hc.2.1] <;> simp
    · rename_i hz
      simp only [Run.ok.injEq, Prod.mk.injEq] at hc; rw [← hc.2.1]; simp [hz]
  · by_cases hz : report'.error.code = 0
    · rw [h0 hz, if_pos hz]; rfl
    · obtain ⟨x, rfl, hx⟩ := h1 hz
      rw [if_neg hz, List.map_cons, (annotation_shown _ _ _ _ hx).1]; rfl
  · have := mapM_pairwise _ (fun w e => shown e = some (toShow (str "warning") w)) (fun a b hab => (annotation_shown _ _ _ _ hab).1) _ _ hws
    generalize report.warnings ++ warned = l at this
    clear hws h
    induction this with
    | nil => rfl
    | cons hab _ ih => rw [List.map_cons, List.map_cons, hab, ih]
  · unfold convert at hc
    split at hc
    · rename_i hz
      rw [if_pos hz]
      have : warned = c.warned.foldl warn [] := by
        cases hr : c.result with
        | ok y => rw [hr] at hc; simp only [Run.ok.injEq, Prod.mk.injEq] at hc; exact hc.2.2.symm
        | error t =>
          rw [hr] at hc
          cases t <;> simp only [Run.ok.injEq, Prod.mk.injEq, reduceCtorEq] at hc <;> exact hc.2.2.symm
      rw [this]; exact warn_first _
    · rename_i hz
      rw [if_neg hz]
      simp only [Run.ok.injEq, Prod.mk.injEq] at hc; exact hc.2.2.symm

/-- C15: which error is reported: that of the parser; else that of the conversion. -/
theorem C15_error (lines : List Nat) (report : Report) (c : Converted) (e : Elem) (report' : Report)
    (h : wrapRefract lines report c = .ok (e, report')) :
    (report.error.code ≠ 0 → report'.error = report.error) ∧
    (report.error.code = 0 → (∃ x, c.result = .ok x) → report'.error.code = 0) ∧
    (report.error.code = 0 → ∀ w, c.result = .error (.std w) → report'.error.code = 4 ∧ report'.error.message = w) ∧
    (report.error.code = 0 → ∀ a, c.result = .error (.error a) → a.code ≠ 0 → report'.error = a) := by
  obtain ⟨blueprint, warned, err, ws, hc, -⟩ := wrap_pieces lines report c e report' h
  unfold convert at hc
  refine ⟨fun hz => ?_, fun hz ⟨x, hx⟩ => ?_, fun hz w hw => ?_, fun hz a ha hne => ?_⟩
  · rw [if_neg hz] at hc; simp only [Run.ok.injEq, Prod.mk.injEq] at hc; exact hc.1.symm
  · rw [if_pos hz, hx] at hc; simp only [Run.ok.injEq, Prod.mk.injEq] at hc; rw [← hc.1]; exact hz
  · rw [if_pos hz, hw] at hc; simp only [Run.ok.injEq, Prod.mk.injEq] at hc; rw [← hc.1]; exact ⟨rfl, rfl⟩
  · rw [if_pos hz, ha] at hc; simp only [Run.ok.injEq, Prod.mk.injEq] at hc; rw [← hc.1, if_pos hne]

/-- C15 (no exception escapes): a parse result is produced for every report and conversion outcome, provided that the conversion throws only
    standard exceptions and parse errors, and that no annotation is at the empty range at offset 0.  Missing: these
    two cases, where it is not (`C15_escape_refuted`, `C15_undefined_refuted`). -/
theorem C15_total_partial (src : Bytes) (report : Report) (c : Converted)
    (hother : report.error.code = 0 → c.result ≠ .error .other)
    (hp : Placed report.error) (hw : ∀ w ∈ report.warnings, Placed w) (hcw : ∀ w ∈ c.warned, Placed w)
    (hce : ∀ a, c.result = .error (.error a) → Placed a) :
    ∃ e report', wrapRefract (linesEndIndex src) report c = .ok (e, report') := by
  have hcv : ∃ error blueprint warned, convert report c = .ok (error, blueprint, warned) ∧ Placed error ∧ ∀ w ∈ warned, Placed w := by
    have hd : ∀ w ∈ c.warned.foldl warn [], Placed w := fun w hw' => hcw w (((warn_first c.warned).2.1 w).1 hw')
    unfold convert
    by_cases hz : report.error.code = 0
    · rw [if_pos hz]
      cases hr : c.result with
      | ok x => exact ⟨_, _, _, rfl, hp, hd⟩
      | error t =>
        cases t with
        | std w => exact ⟨_, _, _, rfl, by simp [Placed], hd⟩
        | error a =>
          refine ⟨_, _, _, rfl, ?_, hd⟩
          split
          · exact hce a hr
          · exact hp
        | other => exact absurd hr (hother hz)
    · rw [if_neg hz]; exact ⟨_, _, _, rfl, hp, by simp⟩
  obtain ⟨error, blueprint, warned, hc, he, hwd⟩ := hcv
  have hws : ∃ ws, (report.warnings ++ warned).mapM (annotationToRefract (linesEndIndex src) (str "warning")) = some ws := by
    apply mapM_total
    intro a ha
    apply annotation_total
    rcases List.mem_append.1 ha with h | h
    · exact hw a h
    · exact hwd a h
  obtain ⟨ws, hws⟩ := hws
  obtain ⟨x, hx⟩ := annotation_total src (str "error") error he
  unfold wrapRefract
  rw [hc]
  simp only [Run.bind]
  by_cases hz : error.code = 0
  · rw [if_neg (by simp [hz])]; simp only [Run.ofOption, hws]; exact ⟨_, _, rfl⟩
  · rw [if_pos hz, hx]; simp only [Option.map_some, Run.ofOption, hws]; exact ⟨_, _, rfl⟩

/-- C15 is false for other exceptions: whatever the report says, anything else that the conversion throws is not caught.
    (The code of the blueprint classes does throw `const char*`.) -/
theorem C15_escape_refuted (lines : List Nat) (report : Report) (c : Converted) (h : report.error.code = 0) (hc : c.result = .error .other) :
    wrapRefract lines report c = .escaped := by
  simp [wrapRefract, convert, h, hc, Run.bind]

/-- C15 is false for annotations at the empty range at offset 0. -/
theorem C15_undefined_refuted (src : Bytes) : wrapRefract (linesEndIndex src) ⟨⟨[⟨0, 0⟩], 2, []⟩, []⟩ ⟨[], .ok (makeEmpty .array)⟩ = .undefined := by
  have hs := Utf8.decodeAll_scalar src
  have : linesEndIndex src = linesEndIndex (utf8s (Utf8.decodeAll src)) := by rw [linesEndIndex_text _ hs]; rfl
  have h0 : getLineFromMap (linesEndIndex src) 0 0 = none := by
    simp [getLineFromMap, endPos, linesEndIndex, lowerBound, derefPrev]
  simp [wrapRefract, convert, Run.bind, annotationToRefract, sourceMapToRefract, rangeToRefract, h0, Run.ofOption]

/-- C15: a run to which all of this applies: one warning of the parser, the same warning twice by the conversion. -/
example : Placed ⟨[⟨3, 2⟩], 5, str "w"⟩ ∧ FirstOccurrences [⟨[⟨3, 2⟩], 5, str "w"⟩, ⟨[⟨3, 2⟩], 5, str "w"⟩] [⟨[⟨3, 2⟩], 5, str "w"⟩] :=
  ⟨by simp [Placed], warn_first [⟨[⟨3, 2⟩], 5, str "w"⟩, ⟨[⟨3, 2⟩], 5, str "w"⟩]⟩

/-! ## C16 -/

def applyParse (o : ParseOptions) : ParseSetter → ParseOptions
  | .nameRequired => setNameRequired o
  | .skipBodies => setSkipBodies o
  | .skipSchemas => setSkipSchemas o

def applySerialize (o : SerializeOptions) : SerializeSetter → SerializeOptions
  | .sourcemaps => setSourcemaps o
  | .format f => setFormat o f

theorem bits (b : BitVec 3) (i : Fin 3) : ((setBit b 0).getLsbD i = (b.getLsbD i || (i : Nat) == 0)) ∧
    ((setBit b 1).getLsbD i = (b.getLsbD i || (i : Nat) == 1)) ∧ ((setBit b 2).getLsbD i = (b.getLsbD i || (i : Nat) == 2)) := by
  revert b i; decide

/-- C16: after any sequence of calls an option is on iff its setter was called. -/
theorem C16_parse (ops : List ParseSetter) :
    isNameRequired (some (ops.foldl applyParse initParse)) = ops.contains .nameRequired ∧
    isSkipBodies (some (ops.foldl applyParse initParse)) = ops.contains .skipBodies ∧
    isSkipSchemas (some (ops.foldl applyParse initParse)) = ops.contains .skipSchemas := by
  suffices ∀ (ops : List ParseSetter) (o : ParseOptions),
      isNameRequired (some (ops.foldl applyParse o)) = (isNameRequired (some o) || ops.contains .nameRequired) ∧
      isSkipBodies (some (ops.foldl applyParse o)) = (isSkipBodies (some o) || ops.contains .skipBodies) ∧
      isSkipSchemas (some (ops.foldl applyParse o)) = (isSkipSchemas (some o) || ops.contains .skipSchemas) by
    have := this ops initParse
    simpa [isNameRequired, isSkipBodies, isSkipSchemas, initParse] using this
  intro ops
  induction ops with
  | nil => intro o; simp
  | cons s ops ih =>
    intro o
    rw [List.foldl_cons]
    obtain ⟨h1, h2, h3⟩ := ih (applyParse o s)
    rw [h1, h2, h3]
    have b0 := bits o.flags 0
    have b1 := bits o.flags 1
    have b2 := bits o.flags 2
    cases s <;> simp_all [isNameRequired, isSkipBodies, isSkipSchemas, applyParse, setNameRequired, setSkipBodies, setSkipSchemas, List.contains_cons]

theorem bit1 (b : BitVec 1) : (setBit b 0).getLsbD 0 = true := by revert b; decide

/-- The last format in a sequence of calls. -/
def lastFormat (ops : List SerializeSetter) : Option Nat :=
  (ops.filterMap fun | .format f => some f | .sourcemaps => none).getLast?

/-- C16: after any sequence of calls source maps are included iff that was asked for, and the format is that of the last call that
    set it, by default YAML (0). -/
theorem C16_serialize (ops : List SerializeSetter) :
    areSourcemapsIncluded (some (ops.foldl applySerialize initSerialize)) = ops.contains .sourcemaps ∧
    getFormat (some (ops.foldl applySerialize initSerialize)) = (lastFormat ops).getD 0 := by
  suffices ∀ (ops : List SerializeSetter) (o : SerializeOptions),
      areSourcemapsIncluded (some (ops.foldl applySerialize o)) = (areSourcemapsIncluded (some o) || ops.contains .sourcemaps) ∧
      getFormat (some (ops.foldl applySerialize o)) = (lastFormat ops).getD o.format by
    have := this ops initSerialize
    simpa [areSourcemapsIncluded, initSerialize] using this
  intro ops
  induction ops with
  | nil => intro o; simp [lastFormat, getFormat]
  | cons s ops ih =>
    intro o
    rw [List.foldl_cons]
    obtain ⟨h1, h2⟩ := ih (applySerialize o s)
    rw [h1, h2]
    cases s with
    | sourcemaps => simp [areSourcemapsIncluded, applySerialize, setSourcemaps, lastFormat, bit1]
    | format f =>
      refine ⟨by simp [areSourcemapsIncluded, applySerialize, setFormat], ?_⟩
      simp only [lastFormat, List.filterMap_cons, applySerialize, setFormat]
      cases h : (ops.filterMap fun | .format f => some f | .sourcemaps => none) with
      | nil => simp
      | cons x l => simp [List.getLast?_cons]

/-- C16: null option objects mean the defaults. -/
theorem C16_null : isNameRequired none = isNameRequired (some initParse) ∧ isSkipBodies none = isSkipBodies (some initParse) ∧
    isSkipSchemas none = isSkipSchemas (some initParse) ∧ areSourcemapsIncluded none = areSourcemapsIncluded (some initSerialize) ∧
    getFormat none = getFormat (some initSerialize) := by decide

/-! ## C14 -/

/-- C14: a null source gives the negative code for invalid input and nothing is written, whatever else is given. -/
theorem C14_null_source (env : Env) (out : Bool) (popts : Option ParseOptions) (sopts : Option SerializeOptions) :
    parseBlueprint env none out popts = .ok (-2, none) ∧ parseBlueprintTo env none out popts sopts = .ok (-2, none) ∧
    checkBlueprint env none out popts = .ok (-2, none) := ⟨rfl, rfl, rfl⟩

/-- C14: a parse writes a result iff asked for, and its outcome (return code, exception, undefined behaviour) does not depend on that. -/
theorem C14_out (env : Env) (src : Bytes) (opts : Option ParseOptions) :
    (∀ code w, parseBlueprint env (some src) true opts = .ok (code, w) → w.isSome) ∧
    (∀ code w, parseBlueprint env (some src) false opts = .ok (code, w) → w = none) ∧
    (∀ code, (∃ w, parseBlueprint env (some src) true opts = .ok (code, w)) ↔ (∃ w, parseBlueprint env (some src) false opts = .ok (code, w))) := by
  simp only [parseBlueprint]
  cases scParse env src (isNameRequired opts) with
  | none => simp [Run.ofOption, Run.bind]
  | some report =>
    simp only [Run.ofOption, Run.bind]
    cases wrapRefract (linesEndIndex src) report (env.converter src (isNameRequired opts) opts) with
    | ok t => simp
    | escaped => simp
    | undefined => simp

/-- C14: the return code is the error code of the parser; if that is 0, that of the conversion. -/
theorem C14_code (env : Env) (src : Bytes) (out : Bool) (opts : Option ParseOptions) (code : Int) (w : Option Elem)
    (h : parseBlueprint env (some src) out opts = .ok (code, w)) :
    ∃ report, scParse env src (isNameRequired opts) = some report ∧
      (report.error.code ≠ 0 → code = report.error.code) ∧
      (report.error.code = 0 → match (env.converter src (isNameRequired opts) opts).result with
        | .ok _ => code = 0
        | .error (.std _) => code = 4
        | .error (.error a) => code = a.code
        | .error .other => False) := by
  unfold parseBlueprint at h
  cases hs : scParse env src (isNameRequired opts) with
  | none => simp [hs, Run.ofOption, Run.bind] at h
  | some report =>
    refine ⟨report, rfl, ?_⟩
    simp only [hs, Run.ofOption, Run.bind] at h
    cases hw : wrapRefract (linesEndIndex src) report (env.converter src (isNameRequired opts) opts) with
    | escaped => simp [hw] at h
    | undefined => simp [hw] at h
    | ok t =>
      obtain ⟨e, report'⟩ := t
      simp only [hw, Run.ok.injEq, Prod.mk.injEq] at h
      obtain ⟨rfl, -⟩ := h
      obtain ⟨h1, h2, h3, h4⟩ := C15_error _ _ _ _ _ hw
      refine ⟨fun hz => by rw [h1 hz], fun hz => ?_⟩
      cases hr : (env.converter src (isNameRequired opts) opts).result with
      | ok x => exact h2 hz ⟨x, hr⟩
      | error t =>
        cases t with
        | std v => exact (h3 hz v hr).1
        | other => rw [C15_escape_refuted _ _ _ hz hr] at hw; cases hw
        | error a =>
          simp only
          by_cases ha : a.code = 0
          · obtain ⟨_, _, _, _, hc, -⟩ := wrap_pieces _ _ _ _ _ hw
            rw [convert, if_pos hz, hr] at hc
            simp only [Run.ok.injEq, Prod.mk.injEq] at hc
            rw [← hc.1, if_neg (by simp [ha]), hz, ha]
          · rw [h4 hz a hr ha]

/-- C14: the return code is 0 iff the result has no annotation of class error. -/
theorem C14_ok_iff_no_error (env : Env) (src : Bytes) (opts : Option ParseOptions) (code : Int) (r : Elem)
    (hcat : ∀ x, (env.converter src (isNameRequired opts) opts).result = .ok x → x.name = str "category")
    (h : parseBlueprint env (some src) true opts = .ok (code, some r)) :
    ∃ children, r.data = .array children ∧ (code = 0 ↔ ∀ x ∈ children, ∀ s, shown x = some s → s.cls ≠ str "error") := by
  unfold parseBlueprint at h
  cases hs : scParse env src (isNameRequired opts) with
  | none => simp [hs, Run.ofOption, Run.bind] at h
  | some report =>
    simp only [hs, Run.ofOption, Run.bind] at h
    cases hw : wrapRefract (linesEndIndex src) report (env.converter src (isNameRequired opts) opts) with
    | escaped => simp [hw] at h
    | undefined => simp [hw] at h
    | ok t =>
      obtain ⟨e, report'⟩ := t
      simp only [hw, Run.ok.injEq, Prod.mk.injEq, if_true, Option.some.injEq] at h
      obtain ⟨rfl, rfl⟩ := h
      obtain ⟨-, cat, err, ws, warned, hd, hc1, hc2, he, hws, -⟩ := C15_content _ _ _ _ _ hw
      refine ⟨_, hd, ?_⟩
      constructor
      · intro hz x hx s hsx
        rw [if_pos hz] at he
        have : err = [] := List.map_eq_nil_iff.1 he
        subst this
        rw [List.append_nil] at hx
        rcases List.mem_append.1 hx with hx | hx
        · rcases hc1 with rfl | ⟨y, rfl⟩
          · simp at hx
          · simp at hx; subst hx
            have := hcat x ((hc2 x).1 rfl).2
            rw [shown, if_pos (by rw [this]; decide)] at hsx; simp at hsx
        · have := List.mem_map_of_mem (f := shown) hx
          rw [hws, hsx] at this
          obtain ⟨w, -, hw'⟩ := List.mem_map.1 this
          simp only [Option.some.injEq] at hw'
          rw [← hw']; exact (by decide : str "warning" ≠ str "error")
      · intro hall
        by_contra hz
        rw [if_neg hz] at he
        have hmem : some (toShow (str "error") report'.error) ∈ err.map shown := by rw [he]; simp
        obtain ⟨x, hx, hsx⟩ := List.mem_map.1 hmem
        exact hall x (by simp [hx]) _ hsx rfl

/-- C14: parsing to a text is parsing and then serialising; the text is written iff asked for, the code is that of the
    parse. -/
theorem C14_to (env : Env) (src : Bytes) (out : Bool) (popts : Option ParseOptions) (sopts : Option SerializeOptions) (code : Int) (w : Option (Option Bytes)) :
    parseBlueprintTo env (some src) out popts sopts = .ok (code, w) ↔
      ∃ r, parseBlueprint env (some src) true popts = .ok (code, some r) ∧ w = (if out then some (serialize (some r) sopts) else none) := by
  have hs := (C14_out env src popts).1
  simp only [parseBlueprintTo]
  cases hp : parseBlueprint env (some src) true popts with
  | escaped => simp [Run.bind]
  | undefined => simp [Run.bind]
  | ok t =>
    obtain ⟨c, r⟩ := t
    have := hs c r hp
    obtain ⟨r, rfl⟩ := Option.isSome_iff_exists.1 this
    simp only [Run.bind, Run.ok.injEq, Prod.mk.injEq, Option.some.injEq]
    constructor
    · rintro ⟨rfl, rfl⟩; exact ⟨r, ⟨rfl, rfl⟩, rfl⟩
    · rintro ⟨r', ⟨rfl, rfl⟩, rfl⟩; exact ⟨rfl, rfl⟩

/-- C14: serialising gives a null pointer iff there is nothing to serialise or the format is neither YAML nor JSON. -/
theorem C14_serialize (res : Option Elem) (sopts : Option SerializeOptions) :
    serialize res sopts = none ↔ res = none ∨ (getFormat sopts ≠ 0 ∧ getFormat sopts ≠ 1) := by
  unfold serialize
  cases res with
  | none => simp
  | some e =>
    simp only
    by_cases h1 : getFormat sopts = 1
    · simp [h1]
    · by_cases h0 : getFormat sopts = 0 <;> simp [h1, h0]

/-- C14: checking a blueprint without a result parameter only gives the code. -/
theorem C14_check_null (env : Env) (src : Bytes) (opts : Option ParseOptions) (code : Int) (w : Option (Option Elem))
    (h : checkBlueprint env (some src) false opts = .ok (code, w)) : w = none ∧ ∃ r, parseBlueprint env (some src) true opts = .ok (code, some r) := by
  obtain ⟨h1, h2, h3⟩ := C14_out env src opts
  unfold checkBlueprint at h
  cases hp : parseBlueprint env (some src) false opts with
  | escaped => simp [hp, Run.bind] at h
  | undefined => simp [hp, Run.bind] at h
  | ok t =>
    obtain ⟨c, r⟩ := t
    have := h2 c r hp
    subst this
    simp only [hp, Run.bind, Run.ok.injEq, Prod.mk.injEq] at h
    obtain ⟨rfl, rfl⟩ := h
    refine ⟨rfl, ?_⟩
    obtain ⟨w, hw⟩ := (h3 c).2 ⟨_, hp⟩
    obtain ⟨r, rfl⟩ := Option.isSome_iff_exists.1 (h1 c w hw)
    exact ⟨r, hw⟩

/-- C14: checking a blueprint gives the code of the full parse, and a result that is null iff the full parse has no
    annotation and otherwise consists of exactly its annotations, in order. -/
theorem C14_check (env : Env) (src : Bytes) (opts : Option ParseOptions) (code : Int) (r : Elem)
    (hcat : ∀ x, (env.converter src (isNameRequired opts) opts).result = .ok x → x.name = str "category")
    (h : parseBlueprint env (some src) true opts = .ok (code, some r)) :
    ∃ children annotations, r.data = .array children ∧ annotations = children.filter (fun x => (shown x).isSome) ∧
      ((annotations = [] ∧ checkBlueprint env (some src) true opts = .ok (code, some none)) ∨
       (annotations ≠ [] ∧ ∃ res, checkBlueprint env (some src) true opts = .ok (code, some (some res)) ∧
          res.name = str "parseResult" ∧ res.data = .array annotations)) := by
  have hfull : ∃ children, r.data = .array children ∧ ∀ x ∈ children, ((shown x).isSome ↔ x.name = str "annotation") := by
    have h' := h
    unfold parseBlueprint at h'
    cases hs : scParse env src (isNameRequired opts) with
    | none => simp [hs, Run.ofOption, Run.bind] at h'
    | some report =>
      simp only [hs, Run.ofOption, Run.bind] at h'
      cases hw : wrapRefract (linesEndIndex src) report (env.converter src (isNameRequired opts) opts) with
      | escaped => simp [hw] at h'
      | undefined => simp [hw] at h'
      | ok t =>
        obtain ⟨e, report'⟩ := t
        simp only [hw, Run.ok.injEq, Prod.mk.injEq, if_true, Option.some.injEq] at h'
        obtain ⟨-, rfl⟩ := h'
        obtain ⟨-, cat, err, ws, warned, hd, hc1, hc2, he, hws, -⟩ := C15_content _ _ _ _ _ hw
        refine ⟨_, hd, ?_⟩
        have hsh : ∀ x : Elem, (shown x).isSome → x.name = str "annotation" := by
          intro x hx
          by_contra hn
          rw [shown, if_pos hn] at hx; simp at hx
        intro x hx
        refine ⟨hsh x, fun hn => ?_⟩
        rcases List.mem_append.1 hx with hx | hx
        · rcases List.mem_append.1 hx with hx | hx
          · rcases hc1 with rfl | ⟨y, rfl⟩
            · simp at hx
            · simp at hx; subst hx
              have := hcat x ((hc2 x).1 rfl).2
              rw [this] at hn; exact absurd hn (by decide)
          · have := List.mem_map_of_mem (f := shown) hx
            rw [he] at this
            split at this
            · simp at this
            · simp at this; rw [this]; rfl
        · have := List.mem_map_of_mem (f := shown) hx
          rw [hws] at this
          obtain ⟨w, -, hw'⟩ := List.mem_map.1 this
          rw [← hw']; rfl
  obtain ⟨children, hd, hiff⟩ := hfull
  refine ⟨children, _, hd, rfl, ?_⟩
  have hf : (childrenOf r).filter (fun e => e.name == str "annotation") = children.filter (fun x => (shown x).isSome) := by
    simp only [childrenOf, hd]
    apply List.filter_congr
    intro x hx
    have := hiff x hx
    cases hb : (shown x).isSome with
    | true => simp [this.1 hb]
    | false => simp only [beq_eq_false_iff_ne]; intro hn; rw [this.2 hn] at hb; simp at hb
  have hck : checkBlueprint env (some src) true opts = .ok (code, some (if (children.filter (fun x => (shown x).isSome)).isEmpty then none
      else some ((makeElement (.array ((children.filter (fun x => (shown x).isSome)).map cloneAll))).setName (str "parseResult")))) := by
    simp only [checkBlueprint, h, Run.bind, hf]
  have hid : ∀ l : List Elem, l.map cloneAll = l := by
    intro l; induction l with
    | nil => rfl
    | cons a l ih => rw [List.map_cons, cloneAll_id, ih]
  by_cases he : children.filter (fun x => (shown x).isSome) = []
  · left; refine ⟨he, ?_⟩; rw [hck, he]; rfl
  · right
    refine ⟨he, (makeElement (.array (children.filter (fun x => (shown x).isSome)))).setName (str "parseResult"), ?_, rfl, rfl⟩
    rw [hck, if_neg (by simpa using he), hid]

/-- An environment that meets the hypotheses, with a parse that gives a warning: the check gives one annotation. -/
def sampleEnv : Env :=
  { parser := fun _ _ => ⟨⟨.ok, [⟨[⟨0, 1⟩], 5, str "w"⟩]⟩, none⟩
    converter := fun _ _ _ => ⟨[], .ok ((makeElement (.array [])).setName (str "category"))⟩ }

example : ∃ r, parseBlueprint sampleEnv (some (str "# A")) true none = .ok (0, some r) := by
  have hs : scParse sampleEnv (str "# A") false = some ⟨.ok, [⟨[⟨0, 1⟩], 5, str "w"⟩]⟩ :=
    C17_accepted sampleEnv (str "# A") false (by decide) (by decide) (by decide) rfl
  obtain ⟨e, r', h⟩ := C15_total_partial (str "# A") ⟨.ok, [⟨[⟨0, 1⟩], 5, str "w"⟩]⟩ (sampleEnv.converter (str "# A") false none)
    (by intro _ h; simp [sampleEnv] at h) (by simp [Placed, Annotation.ok]) (by simp [Placed]) (by simp [sampleEnv]) (by intro a h; simp [sampleEnv] at h)
  have hc := (C15_error _ _ _ _ _ h).2.1 rfl ⟨_, rfl⟩
  refine ⟨e, ?_⟩
  simp only [parseBlueprint, isNameRequired, hs, Run.ofOption, Run.bind, h, hc, if_true]

end Verif.Props
