import Verif.Model.Api
import Verif.Spec.Utf8
/-!
# Parse results (specification)
-/
namespace Verif.Spec
open Verif Verif.Refract Verif.Api

/-- The number a number element shows. -/
def shownNumber (e : Elem) : Option Bytes := match e.data with | .number s => some s | _ => none

/-- The location and length of an entry of a source map. -/
def shownRange (e : Elem) : Option (Bytes × Bytes) :=
  match e.data with
  | .array [a, b] => (shownNumber a).bind fun x => (shownNumber b).map fun y => (x, y)
  | _ => none

/-- The entries of a source map. -/
def shownRanges (e : Elem) : Option (List (Bytes × Bytes)) :=
  match e.data with
  | .array [m] => (match m.data with | .array l => if m.name = str "sourceMap" then l.mapM shownRange else none | _ => none)
  | _ => none

/-- What a reader of the parse result sees of an annotation: class, code, message and the ranges. -/
structure Shown where
  cls : Bytes
  code : Bytes
  message : Bytes
  ranges : List (Bytes × Bytes)
deriving DecidableEq

/-- The annotation that an element shows, if it is an annotation element. -/
def shown (e : Elem) : Option Shown :=
  if e.name ≠ str "annotation" then none
  else
    match e.data, Infos.find e.metas (str "classes"), (Infos.find e.attributes (str "code")).bind shownNumber,
        (Infos.find e.attributes (str "sourceMap")).bind shownRanges with
    | .string msg, some cls, some code, some ranges =>
      (match cls.data with | .array [.mk _ _ _ _ (.string k)] => some ⟨k, code, msg, ranges⟩ | _ => none)
    | _, _, _, _ => none

/-- A decimal number. -/
def dec (n : Int) : Bytes := str (toString n)

/-- What has to be shown of an annotation. -/
def toShow (cls : Bytes) (a : Annotation) : Shown := ⟨cls, dec a.code, a.message, a.location.map fun r => (dec r.location, dec r.length)⟩

/-- `ws` are the distinct entries of `calls` in the order of their first occurrence. -/
def FirstOccurrences (calls ws : List Annotation) : Prop :=
  ws.Nodup ∧ (∀ w, w ∈ ws ↔ w ∈ calls) ∧ ws.Pairwise (fun a b => calls.idxOf a < calls.idxOf b)

/-- The range is not the empty one at the beginning. -/
def Placed (a : Annotation) : Prop := ∀ r ∈ a.location, 0 < r.location + r.length

/-- Calls of option setters. -/
inductive ParseSetter where | nameRequired | skipBodies | skipSchemas
deriving DecidableEq
inductive SerializeSetter where | sourcemaps | format (f : Nat)
deriving DecidableEq

end Verif.Spec
