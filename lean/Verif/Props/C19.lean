import Verif.Proof.SerializeSo
/-!
# C19 – source maps appear only when asked for
-/
namespace Verif.Props
open Verif Verif.Spec Verif.Refract Verif.So

/-- C19: with the flag off, the serialised document has no source map outside the attributes of annotations. -/
theorem C19_off_no_maps (e : Elem) : noMaps (renderSo e false) = true := nm_ser e

/-- C19: the flag changes nothing else: with it off the document is the one that the tree without its source maps
    would give with the flag on. -/
theorem C19_off_only_drops_maps (e : Elem) : renderSo e false = renderSo (withoutMaps e) true := ser_off e

/-- C19: with the flag on, every part of the tree – names, meta, attributes including source maps, content – can be
    read back from the document. -/
theorem C19_on_complete (e : Elem) : readTree (renderSo e true) = treeOf e := read_ser e

/-- C19: with the flag off the same holds of everything but the source maps. -/
theorem C19_off_complete (e : Elem) : readTree (renderSo e false) = treeOf (withoutMaps e) := by
  rw [C19_off_only_drops_maps]; exact read_ser _

/-- A string with a source map, and an annotation with one: the first is dropped, the second kept. -/
example :
    let sm : Infos := [(str "sourceMap", makeElement (.string (str "0:1")))]
    let s : Elem := .mk (str "string") [] sm true (.string (str "x"))
    let a : Elem := .mk (str "annotation") [] sm true (.string (str "w"))
    withoutMaps (makeElement (.array [s, a])) =
      makeElement (.array [.mk (str "string") [] [] true (.string (str "x")), a]) := by
  simp [withoutMaps, withoutMapsI, withoutMapsD, withoutMapsL, makeElement, str, asc]
  decide

end Verif.Props
