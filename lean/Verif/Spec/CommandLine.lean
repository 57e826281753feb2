import Verif.Model.Api
import Verif.Spec.Api

/-!
# The report of the command line program (specification)
-/
namespace Verif.Spec.CommandLine
open Verif Verif.ByteBuffer Verif.Lines Verif.Api

/-- A range, as offset and number of characters. -/
def characters (r : Range) : Bytes := dec r.location ++ str ":" ++ dec r.length

/-- The ranges of an annotation. -/
def allCharacters : List Range → Bytes
  | [] => []
  | r :: rs => str " :" ++ characters r ++ (rs.map fun r => str ";" ++ characters r).flatten

/-- A range, as line and column of its ends. -/
def position (p : Pos) : Bytes :=
  str "; line " ++ dec p.fromLine ++ str ", column " ++ dec p.fromColumn ++ str " - line " ++ dec p.toLine ++ str ", column " ++ dec p.toColumn

/-- The ranges of an annotation, as lines and columns of a text. -/
inductive Positions (source : Bytes) : List Range → Bytes → Prop
  | nil : Positions source [] []
  | cons {r p rs t} : getLineFromMap (linesEndIndex source) r.location r.length = some p → Positions source rs t →
      Positions source (r :: rs) (position p ++ t)

/-- How places are written: as characters, or as lines and columns of the source. -/
inductive Places (source : Bytes) : Bool → List Range → Bytes → Prop
  | characters {rs} : Places source false rs (allCharacters rs)
  | lines {rs t} : Positions source rs t → Places source true rs t

/-- The line of the report for an annotation. -/
inductive Line (source : Bytes) (lines : Bool) (cls : Bytes) (a : Annotation) : Bytes → Prop
  | mk {t} : Places source lines a.location t → Line source lines cls a (cls ++ str ": (" ++ dec a.code ++ str ")  " ++ a.message ++ t ++ str "\n")

/-- A line for each of the warnings. -/
inductive Warnings (source : Bytes) (lines : Bool) : List Annotation → Bytes → Prop
  | nil : Warnings source lines [] []
  | cons {w ws l t} : Line source lines (str "warning") w l → Warnings source lines ws t → Warnings source lines (w :: ws) (l ++ t)

/-- The report: an empty line; `OK.` or the error; the warnings. -/
inductive Written (source : Bytes) (lines : Bool) (report : Report) : Bytes → Prop
  | ok {t} : report.error.code = 0 → Warnings source lines report.warnings t → Written source lines report (str "\nOK.\n" ++ t)
  | error {l t} : report.error.code ≠ 0 → Line source lines (str "error") report.error l → Warnings source lines report.warnings t →
      Written source lines report (str "\n" ++ l ++ t)

/-- Places that fit into an `int`. -/
def Small (a : Annotation) : Prop := ∀ r ∈ a.location, r.location < 2147483648 ∧ r.length < 2147483648

end Verif.Spec.CommandLine
