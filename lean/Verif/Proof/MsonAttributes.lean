import Verif.Proof.MsonRoles

/-! # What is made of an `Attributes` item -/

namespace Verif.MsonParser
open Verif Verif.Text Verif.Section Verif.Recognition Verif.Spec Verif.Spec.MsonParser
open Verif.Mson (Base TypeDef Context)
open Verif.DataStructure (NamedType)

/-- What is made of the item. -/
def attributesMeaning (w : World) : Reader NamedType := fun n types =>
  namedLens.read w (meaning w) attributesSignature id n ⟨{}, types, []⟩

theorem attributesSignature_frame (n : Node) (a : NamedType) (types : Context) (ws : List Warning) :
    attributesSignature n ⟨[], a, types, ws⟩ = afterR ws (attributesSignature n ⟨[], a, types, []⟩) := by
  unfold attributesSignature
  cases readSignature typeTraits n with
  | error e => rfl
  | ok q => simp [afterR, after]

theorem attributesSignature_ends (n : Node) (pd : PD (Out NamedType)) : Ends (attributesSignature n pd) := by
  unfold attributesSignature
  have := readSignature_ends typeTraits n
  split
  · intro h; cases h; exact this ‹_›
  · simp [Ends]

theorem attributes_at (w : World) {n : Node} {types : Context} (ns : List Node) (i : Nat) (ctx : List SectionType) (ws : List Warning)
    (hi : ns[i]? = some n) : parseAttributes w ns i ⟨[] ++ ctx, {}, types, ws⟩ =
      Payload.outcome i ([] ++ ctx) (afterR ws (attributesMeaning w n types)) := by
  have h := namedLens.own_list (w := w) (agrees w (depth.depths ns)) (sg := attributesSignature) (fin := id) ctx {} (fun _ => rfl)
    (fun _ _ _ => rfl) attributesSignature_frame (fun _ _ _ => by simp [after]) ns i n types ws hi
  have e : namedLens.read w (readers w (depth.depths ns)) attributesSignature id n ⟨{}, types, []⟩ = attributesMeaning w n types := by
    unfold attributesMeaning Lens.read
    refine itemResult_congr (fun m hm d => namedLens.step_same (readers_meaning w ?_) w d) _
    have h1 := depth_mem hm
    have h2 := mem_depth hi
    rw [depth_eq] at h2
    omega
  simp only [e] at h
  exact h

theorem attributes_ends (w : World) (n : Node) (types : Context) : Ends (attributesMeaning w n types) :=
  namedLens.read_ends (sg := attributesSignature) (fun n o => attributesSignature_ends n ⟨[], o⟩) (fun m _ => meaning_ends w m) _

end Verif.MsonParser
