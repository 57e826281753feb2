import Verif.Proof.CommandLineRun
import Verif.Model.RefractApi

/-! # C96: what the command line program writes -/

namespace Verif.Props
open Verif Verif.Refract Verif.ByteBuffer Verif.Lines Verif.Api Verif.Spec Verif.Spec.CommandLine
open Verif.CommandLine (Config Outcome processRefract serializeOptions printReport stoi)

/-- The program parses its input up to the first NUL, exits with the code of the error, writes the parse result unless it only validates,
    and reports the error, if there is one, and the warnings of the parse result, in this order, each in a line. -/
theorem C96_run (env : Env) (config : Config) (input : Bytes) (o : Outcome) (h : processRefract env config input = .ok o)
    (hn : ∀ x, (env.converter (input.takeWhile (· ≠ 0)) false (some initParse)).result = .ok x → x.name ≠ str "annotation") :
    ∃ report e report', scParse env (input.takeWhile (· ≠ 0)) false = some report ∧
      wrapRefract (linesEndIndex (input.takeWhile (· ≠ 0))) report (env.converter (input.takeWhile (· ≠ 0)) false (some initParse)) =
        .ok (e, report') ∧
      o.status = report'.error.code ∧
      o.out = (if config.validate then [] else
        (if config.json then Json.serializeJson false (renderSo e config.sourceMap)
          else Yaml.serializeYaml (renderSo e config.sourceMap)).takeWhile (· ≠ 0) ++ str "\n") ∧
      ((config.lineNumbers = true → Small report'.error ∧ ∀ w ∈ report'.warnings, Small w) → Written input config.lineNumbers report' o.err) := by
  unfold processRefract at h
  cases hp : parseBlueprint env (some (input.takeWhile (· ≠ 0))) true (some initParse) with
  | escaped => rw [hp] at h; cases h
  | undefined => rw [hp] at h; cases h
  | ok p =>
    obtain ⟨ret, res⟩ := p
    obtain ⟨report, e, report', hs, hw, rfl, rfl⟩ := (Verif.CommandLine.parse_iff env _ _ _).mp hp
    rw [hp] at h
    simp only [Run.bind] at h
    cases hr : printReport e input config.lineNumbers report'.error.code with
    | none => rw [hr] at h; cases h
    | some err =>
      rw [hr] at h
      simp only [Run.ofOption, Run.ok.injEq] at h
      subst h
      refine ⟨report, e, report', hs, hw, rfl, ?_, fun hsm => (Verif.CommandLine.printReport_iff hw hn hsm err).mp hr⟩
      rw [Verif.CommandLine.serialize_config]

/-- Where the parser ends with a result, so does the program, if it reports characters, or if the places in its report fit into an `int`. -/
theorem C96_returns (env : Env) (config : Config) (input : Bytes) (report report' : Report) (e : Elem)
    (hs : scParse env (input.takeWhile (· ≠ 0)) false = some report)
    (hw : wrapRefract (linesEndIndex (input.takeWhile (· ≠ 0))) report (env.converter (input.takeWhile (· ≠ 0)) false (some initParse)) =
      .ok (e, report'))
    (hn : ∀ x, (env.converter (input.takeWhile (· ≠ 0)) false (some initParse)).result = .ok x → x.name ≠ str "annotation")
    (hsm : config.lineNumbers = true → Small report'.error ∧ ∀ w ∈ report'.warnings, Small w) :
    ∃ o, processRefract env config input = .ok o := by
  have hp := (Verif.CommandLine.parse_iff env _ _ _).mpr ⟨report, e, report', hs, hw, rfl, rfl⟩
  obtain ⟨h1, h2⟩ := Verif.CommandLine.wrap_placed hw
  obtain ⟨t, ht⟩ := Verif.CommandLine.written_total input config.lineNumbers report' h1 h2
  have hr := (Verif.CommandLine.printReport_iff hw hn hsm t).mpr ht
  unfold processRefract
  rw [hp]
  simp only [Run.bind, hr]
  exact ⟨_, rfl⟩

/-- The conversion of a blueprint gives a category, no annotation. -/
theorem C96_category {δ : Type} (env : RefractApi.Env δ) (b : RefractApi.Blueprint δ) (e : Elem) (h : RefractApi.blueprintToRefract env b = .ok e) :
    e.name ≠ str "annotation" := by
  have hname : e.name = str "category" := by
    unfold RefractApi.blueprintToRefract at h
    simp only at h
    cases hl : RefractApi.elementsToRefract env b.elements with
    | error s => rw [hl] at h; cases h
    | ok l =>
      rw [hl] at h
      simp only [Except.bind, Except.ok.injEq] at h
      subst h
      split <;> rfl
  rw [hname]
  decide

/-- Lines and columns, where the text is well formed and the lines are ended: those of the first and the last character of the range. -/
theorem C96_positions (cs : List Nat) (hs : ∀ c ∈ cs, Scalar c) (rs : List Range)
    (h : ∀ r ∈ rs, 0 < r.length ∧ NewlineFrom cs (r.location + r.length - 1)) (t : Bytes) :
    Positions (utf8s cs) rs t ↔ t = (rs.map fun r => str "; line " ++ dec (lineOf cs r.location) ++ str ", column " ++ dec (columnOf cs r.location) ++
      str " - line " ++ dec (lineOf cs (r.location + r.length - 1)) ++ str ", column " ++ dec (columnOf cs (r.location + r.length - 1))).flatten := by
  induction rs generalizing t with
  | nil =>
    constructor
    · intro h; cases h; rfl
    · rintro rfl; exact .nil
  | cons r rs ih =>
    have hp := C11_position_partial cs hs r.location r.length (h r List.mem_cons_self).1 (h r List.mem_cons_self).2
    have ih := fun t => ih (fun r hr => h r (List.mem_cons_of_mem _ hr)) t
    constructor
    · intro h'
      cases h' with
      | cons hp' ht =>
        rw [hp] at hp'
        have hp' := Option.some.inj hp'
        subst hp'
        rw [(ih _).mp ht, List.map_cons, List.flatten_cons, position]
    · rintro rfl
      have h2 := Positions.cons hp ((ih _).mpr rfl)
      rw [position] at h2
      rw [List.map_cons, List.flatten_cons]
      exact h2

/-- Beyond that it does not: with line numbers, and a place of a reported annotation beyond the largest `int`, the program ends nowhere, as the
    conversion of the number throws where nothing may be thrown. -/
theorem C96_long (env : Env) (config : Config) (input : Bytes) (report report' : Report) (e : Elem)
    (hs : scParse env (input.takeWhile (· ≠ 0)) false = some report)
    (hw : wrapRefract (linesEndIndex (input.takeWhile (· ≠ 0))) report (env.converter (input.takeWhile (· ≠ 0)) false (some initParse)) =
      .ok (e, report'))
    (a : Annotation) (ha : a ∈ report'.warnings ∨ a = report'.error ∧ report'.error.code ≠ 0) (r : Range) (hr : r ∈ a.location)
    (hb : 2147483648 ≤ r.location ∨ 2147483648 ≤ r.length) (hl : config.lineNumbers = true) :
    processRefract env config input = .undefined := by
  have hp := (Verif.CommandLine.parse_iff env _ _ _).mpr ⟨report, e, report', hs, hw, rfl, rfl⟩
  unfold processRefract
  rw [hp]
  simp only [Run.bind, hl, Verif.CommandLine.report_big hw ha ⟨r, hr, hb⟩, Run.ofOption]

end Verif.Props
