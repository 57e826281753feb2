import Verif.Spec.DataStructure
import Verif.Proof.Element
import Verif.Proof.Registry
import Verif.Proof.Number
import Verif.Proof.Util
/-!
# From MSON to API Elements (proofs)
-/
namespace Verif.DataStructure
open Verif Verif.Refract Verif.Registry Verif.Spec Verif.Spec.DataStructure
open Verif.NamedTypes (BaseName TypeName)
open Verif.Mson (Value TypeDef TypeSpec ValueDef PropertyName)

namespace W
variable {α β : Type}

theorem bind_ok (x : W α) (f : α → W β) (b : β) : (x.bind f).result = .ok b ↔ ∃ a, x.result = .ok a ∧ (f a).result = .ok b := by
  unfold bind
  cases h : x.result with
  | ok a => simp
  | error s => simp

theorem bind_error (x : W α) (f : α → W β) (s : Stop) :
    (x.bind f).result = .error s ↔ x.result = .error s ∨ ∃ a, x.result = .ok a ∧ (f a).result = .error s := by
  unfold bind
  cases h : x.result with
  | ok a => simp
  | error s' => simp

theorem bind_warnings (x : W α) (f : α → W β) (a : α) (h : x.result = .ok a) : (x.bind f).warnings = x.warnings ++ (f a).warnings := by
  unfold bind
  rw [h]

@[simp] theorem pure_result (a : α) : (W.pure a).result = .ok a := rfl
@[simp] theorem pure_warnings (a : α) : (W.pure a).warnings = [] := rfl
@[simp] theorem stop_result (s : Stop) : (W.stop s : W α).result = .error s := rfl
@[simp] theorem warn_result (ws : List Warning) : (W.warn ws).result = .ok () := rfl
@[simp] theorem warn_warnings (ws : List Warning) : (W.warn ws).warnings = ws := rfl
theorem pure_bind (a : α) (f : α → W β) : (W.pure a).bind f = f a := rfl
theorem warn_bind (ws : List Warning) (f : Unit → W β) : (W.warn ws).bind f = ⟨ws ++ (f ()).warnings, (f ()).result⟩ := rfl

theorem ends_ok (o : Option α) (a : α) : (W.ends o).result = .ok a ↔ o = some a := by
  cases o <;> simp [W.ends]
theorem defined_ok (o : Option α) (a : α) : (W.defined o).result = .ok a ↔ o = some a := by
  cases o <;> simp [W.defined]
theorem ends_warnings (o : Option α) : (W.ends o).warnings = [] := by cases o <;> rfl
theorem defined_warnings (o : Option α) : (W.defined o).warnings = [] := by cases o <;> rfl

theorem each_ok (f : α → W β) : ∀ (l : List α) (l' : List β), (W.each f l).result = .ok l' ↔ List.Forall₂ (fun a b => (f a).result = .ok b) l l'
  | [], l' => by cases l' <;> simp [W.each]
  | a :: r, l' => by
    simp only [W.each, bind_ok, pure_result, each_ok f r, Except.ok.injEq]
    constructor
    · rintro ⟨b, hb, bs, hbs, rfl⟩; exact .cons hb hbs
    · intro h; cases h with
      | cons h1 h2 => exact ⟨_, h1, _, h2, rfl⟩
end W

/-! ## Attributes -/

theorem attributes_setAttr (k : Bytes) (v e : Elem) : (setAttr k v e).attributes = Infos.set e.attributes k v := by cases e; rfl
theorem data_setAttr (k : Bytes) (v e : Elem) : (setAttr k v e).data = e.data := by cases e; rfl
theorem has_setAttr (k : Bytes) (v e : Elem) : (setAttr k v e).has = e.has := by cases e; rfl
theorem name_setAttr (k : Bytes) (v e : Elem) : (setAttr k v e).name = e.name := by cases e; rfl
theorem metas_setAttr (k : Bytes) (v e : Elem) : (setAttr k v e).metas = e.metas := by cases e; rfl
theorem attributes_setMeta (k : Bytes) (v e : Elem) : (setMeta k v e).attributes = e.attributes := by cases e; rfl
theorem data_setMeta (k : Bytes) (v e : Elem) : (setMeta k v e).data = e.data := by cases e; rfl
theorem has_setMeta (k : Bytes) (v e : Elem) : (setMeta k v e).has = e.has := by cases e; rfl
theorem name_setMeta (k : Bytes) (v e : Elem) : (setMeta k v e).name = e.name := by cases e; rfl
theorem metas_setMeta (k : Bytes) (v e : Elem) : (setMeta k v e).metas = Infos.set e.metas k v := by cases e; rfl
theorem attributes_setData (d : Data) (e : Elem) : (e.setData d).attributes = e.attributes := by cases e; rfl
theorem metas_setData (d : Data) (e : Elem) : (e.setData d).metas = e.metas := by cases e; rfl
theorem data_setData (d : Data) (e : Elem) : (e.setData d).data = d := by cases e; rfl
theorem has_setData (d : Data) (e : Elem) : (e.setData d).has = true := by cases e; rfl
theorem name_setData (d : Data) (e : Elem) : (e.setData d).name = e.name := by cases e; rfl

theorem find_setAttr (k k' : Bytes) (v e : Elem) :
    Infos.find (setAttr k v e).attributes k' = if k' = k then some v else Infos.find e.attributes k' := by
  rw [attributes_setAttr, Infos.find_set]

/-! What an operation on an element leaves as it is. -/

/-- Same content and name; same attributes but for the keys in `ks`; same meta attributes but for the keys in `ms`. -/
structure Keeps (ks ms : List Bytes) (e e' : Elem) : Prop where
  data : e'.data = e.data
  has : e'.has = e.has
  name : e'.name = e.name
  attributes : ∀ k, k ∉ ks → Infos.find e'.attributes k = Infos.find e.attributes k
  metas : ∀ k, k ∉ ms → Infos.find e'.metas k = Infos.find e.metas k

theorem Keeps.refl (ks ms) (e : Elem) : Keeps ks ms e e := ⟨rfl, rfl, rfl, fun _ _ => rfl, fun _ _ => rfl⟩
theorem Keeps.trans {ks ms ks' ms' e e' e''} (h : Keeps ks ms e e') (h' : Keeps ks' ms' e' e'') : Keeps (ks ++ ks') (ms ++ ms') e e'' :=
  ⟨h'.data.trans h.data, h'.has.trans h.has, h'.name.trans h.name,
   fun k hk => by rw [h'.attributes k (fun a => hk (by simp [a])), h.attributes k (fun a => hk (by simp [a]))],
   fun k hk => by rw [h'.metas k (fun a => hk (by simp [a])), h.metas k (fun a => hk (by simp [a]))]⟩

theorem keeps_setAttr (k : Bytes) (v e : Elem) : Keeps [k] [] e (setAttr k v e) :=
  ⟨data_setAttr k v e, has_setAttr k v e, name_setAttr k v e,
   fun k' hk => by rw [find_setAttr, if_neg (by simpa using hk)], fun _ _ => by rw [metas_setAttr]⟩
theorem keeps_setMeta (k : Bytes) (v e : Elem) : Keeps [] [k] e (setMeta k v e) :=
  ⟨data_setMeta k v e, has_setMeta k v e, name_setMeta k v e, fun _ _ => by rw [attributes_setMeta],
   fun k' hk => by rw [metas_setMeta, Infos.find_set, if_neg (by simpa using hk)]⟩

theorem keeps_attach (m : SourceMap) (e : Elem) : Keeps [str "sourceMap"] [] e (attach m e) := by
  unfold attach
  split
  · exact .refl _ _ _
  · exact keeps_setAttr _ _ _
theorem keeps_setTypeAttributes (bits : Nat) (e : Elem) : Keeps [str "typeAttributes"] [] e (setTypeAttributes bits e) := by
  unfold setTypeAttributes
  split
  · exact .refl _ _ _
  · exact keeps_setAttr _ _ _
theorem keeps_setDescription (l : List (Bytes × SourceMap)) (e : Elem) : Keeps [] [str "description"] e (setDescription l e) := by
  unfold setDescription
  split
  · exact .refl _ _ _
  · exact keeps_setMeta _ _ _
theorem keeps_saveSamples (t : BaseName) (l : List Info) (e : Elem) : Keeps [str "samples"] [] e (saveSamples t l e) := by
  unfold saveSamples
  split <;> split <;> first | exact .refl _ _ _ | exact keeps_setAttr _ _ _
theorem keeps_saveDefault (t : BaseName) (l : List Info) (e e' : Elem) (h : (saveDefault t l e).result = .ok e') :
    Keeps [str "default"] [] e e' := by
  unfold saveDefault at h
  cases hl : l.getLast? with
  | none => rw [hl] at h; cases h; exact .refl _ _ _
  | some last =>
    rw [hl] at h
    simp only at h
    split at h
    · rw [W.warn_bind] at h; cases h; exact keeps_setAttr _ _ _
    · cases h; exact keeps_setAttr _ _ _

/-! ## Flags -/

theorem typeAttributes_eq (bits : Nat) : typeAttributes bits = listed ((flagWords bits).map text) := by
  unfold typeAttributes
  split
  · rename_i h; subst h; decide +kernel
  · simp only [listed, flagWords, shown, bitRequired, bitOptional, bitFixed, bitFixedType, bitNullable]
    by_cases h0 : bits.testBit 0 <;> by_cases h1 : bits.testBit 1 <;> by_cases h2 : bits.testBit 2 <;> by_cases h6 : bits.testBit 6 <;>
      by_cases h5 : bits.testBit 5 <;> simp [h0, h1, h2, h5, h6, list] <;> rfl

theorem clashes_eq (bits : Nat) : clashes bits = clashing bits := by
  simp only [clashes, clashing, exclusive, bitRequired, bitOptional, bitFixed, bitFixedType, bitSample, bitDefault]
  by_cases h0 : bits.testBit 0 <;> by_cases h1 : bits.testBit 1 <;> by_cases h2 : bits.testBit 2 <;> by_cases h6 : bits.testBit 6 <;>
    by_cases h4 : bits.testBit 4 <;> by_cases h3 : bits.testBit 3 <;> simp [h0, h1, h2, h3, h4, h6]

theorem find_setTypeAttributes (bits : Nat) (e : Elem) (h : Infos.find e.attributes (str "typeAttributes") = none) :
    attr (setTypeAttributes bits e) "typeAttributes" = listed ((flagWords bits).map text) := by
  unfold attr setTypeAttributes
  rw [typeAttributes_eq]
  split
  · rename_i h'; rw [h, h']
  · rename_i x h'; rw [find_setAttr, if_pos rfl, h']

end Verif.DataStructure
