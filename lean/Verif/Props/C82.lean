import Verif.Proof.MsonAttributes

/-!
# C82: what is made of an item of a data structure depends on the item alone

A list item below `Attributes` or a named type is read as the same property, value, `Include`, `One of` or type section wherever it
stands in the list, whatever section it is in and whatever has been reported before; only what is known of the named types counts.
One item is read at a time; reports are added behind those that are there; reading ends.
-/

namespace Verif.Props
open Verif Verif.Text Verif.Section Verif.MsonParser Verif.Spec.MsonParser
open Verif.Mson (Base Context)

theorem decided {β : Type} {p : Parse (Out β)} {top : List SectionType} {new : β} {r : Reader β} {n : Node} {types : Context}
    (h : ∀ ns i ctx ws, ns[i]? = some n → p ns i ⟨top ++ ctx, new, types, ws⟩ = Payload.outcome i (top ++ ctx) (afterR ws (r n types)))
    (he : Ends (r n types)) : Decided p top new n types := by
  cases hr : r n types with
  | ok o => exact .inl ⟨o, (readAs_iff h).mpr hr⟩
  | error e =>
    refine .inr ⟨e, ?_, (fails_iff h).mpr hr⟩
    rintro rfl; exact he hr

/-- Every item is decided by itself, in each of its roles. -/
theorem C82_local (w : World) (n : Node) (types : Context) :
    Decided (parseProperty w) [] {} n types ∧ Decided (parseValue w) [] {} n types ∧ Decided (parseMixin w) [] {} n types ∧
    Decided (parseOneOf w) [] [] n types ∧ Decided (parseAttributes w) [] {} n types ∧
    ∀ t b, Decided (parseTypeSection w) [t] { base := b } n types :=
  have h := meaning_ends w n
  ⟨decided (property_at w) (h.property types), decided (value_at w) (h.value types), decided (include_at w) (h.mixin types),
    decided (oneOf_at w) (h.oneOf types), decided (attributes_at w) (attributes_ends w n types),
    fun t b => decided (part_at w t b) (h.typeSection t b types)⟩

/-- Only list items are read: anything else is an exception. -/
theorem C82_only_items (w : World) (n : Node) (types : Context) (hn : n.kind ≠ .listItem) :
    Fails (parseProperty w) [] {} n types .thrown ∧ Fails (parseValue w) [] {} n types .thrown ∧
    Fails (parseMixin w) [] {} n types .thrown ∧ Fails (parseOneOf w) [] [] n types .thrown ∧
    Fails (parseAttributes w) [] {} n types .thrown ∧ ∀ t b, Fails (parseTypeSection w) [t] { base := b } n types .thrown := by
  have h := meaning_layer w n
  refine ⟨(fails_iff (property_at w)).mpr ?_, (fails_iff (value_at w)).mpr ?_, (fails_iff (include_at w)).mpr ?_,
    (fails_iff (oneOf_at w)).mpr ?_, (fails_iff (attributes_at w)).mpr ?_, fun t b => (fails_iff (part_at w t b)).mpr ?_⟩
  · rw [h.property]; simp [layer, Lens.read, itemResult, hn]
  · rw [h.value]; simp [layer, Lens.read, itemResult, hn]
  · rw [h.mixin]; simp [layer, itemResult, hn]
  · rw [h.oneOf]; simp [layer, itemResult, hn]
  · simp [attributesMeaning, Lens.read, itemResult, hn]
  · rw [h.typeSection]; simp [layer, itemResult, hn]

/-- What two items that follow each other are read as does not depend on their order, if neither tells anything new about the named
types: each is read as it would be alone. -/
theorem C82_pair (w : World) (m n : Node) (types : Context) (a b : Out PropertyNode)
    (ha : ReadProperty w m types a) (hb : ReadProperty w n types b) (ctx : List SectionType) (ws : List Warning) :
    parseProperty w [m, n] 0 ⟨ctx, {}, types, ws⟩ = .ok (1, ⟨ctx, a.node, a.types, ws ++ a.warnings⟩) ∧
    parseProperty w [m, n] 1 ⟨ctx, {}, types, ws⟩ = .ok (2, ⟨ctx, b.node, b.types, ws ++ b.warnings⟩) ∧
    parseProperty w [n, m] 0 ⟨ctx, {}, types, ws⟩ = .ok (1, ⟨ctx, b.node, b.types, ws ++ b.warnings⟩) ∧
    parseProperty w [n, m] 1 ⟨ctx, {}, types, ws⟩ = .ok (2, ⟨ctx, a.node, a.types, ws ++ a.warnings⟩) :=
  ⟨ha [m, n] 0 ctx ws rfl, hb [m, n] 1 ctx ws rfl, hb [n, m] 0 ctx ws rfl, ha [n, m] 1 ctx ws rfl⟩

/-! ## Cases -/

/-- No source and no headers. -/
def msonWorld : World := ⟨str "xyz", fun _ => []⟩
/-- No named types. -/
def noTypes : Context := ⟨[], [], [], none⟩

def mpara (s : String) : Node := .mk .paragraph (str s) [⟨0, 1⟩] []
def mitem (ns : List Node) : Node := .mk .listItem [] [⟨0, 1⟩] ns

/-- A property that is read. -/
example : ∃ o, ReadProperty msonWorld (mitem [mpara "a: b"]) noTypes o ∧ o.node.name.literal = str "a" ∧
    o.node.definition.values.map (·.literal) = [str "b"] := by
  have : (meaning msonWorld).property (mitem [mpara "a: b"]) noTypes |>.toOption |>.any fun o =>
      o.node.name.literal = str "a" ∧ o.node.definition.values.map (·.literal) = [str "b"] := by decide +kernel
  cases h : (meaning msonWorld).property (mitem [mpara "a: b"]) noTypes with
  | error e => rw [h] at this; simp [Except.toOption] at this
  | ok o =>
    rw [h] at this
    simp only [Except.toOption, Option.any, decide_eq_true_eq] at this
    exact ⟨o, readProperty_iff.mpr h, this⟩

/-- Refuted: that every list item can be read as a property.  Empty parentheses make the parser read past the end. -/
theorem C82_total_refuted : ∃ s : String, Fails (parseProperty msonWorld) [] {} (mitem [mpara s]) noTypes .outOfRange := by
  refine ⟨"a ()", (fails_iff (property_at msonWorld)).mpr ?_⟩
  have : (match (meaning msonWorld).property (mitem [mpara "a ()"]) noTypes with
    | .error .outOfRange => true
    | _ => false) = true := by decide +kernel
  split at this
  · assumption
  · cases this

end Verif.Props
