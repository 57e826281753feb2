import Verif.Proof.NamedTypeSpec
import Verif.Props.C83

/-!
# C89: a named type, exactly

`C89_named` characterises the parser of named types (the headers of `# Data Structures`) by `TypeRead` of `Spec/NamedType.lean`; `C89_one`: the
specification leaves no choice; `C89_ends`, `C89_ends_object`: where a type ends; `C89_properties`: the usual type; `C89_item_section`: a type section
that is a list item cannot be read there.
-/

namespace Verif.Props
open Verif Verif.Text Verif.Section Verif.Recognition Verif.MsonParser Verif.Spec Verif.Spec.MsonParser
open Verif.Mson (Base Context)
open Verif.DataStructure (Klass Element NamedType)

/-- C89: what a header and the blocks after it give, what is reported, and which blocks are left is what `TypeRead` says: wherever it stands, and
whatever has been reported before. -/
theorem C89_named (w : World) (ctx : List SectionType) (siblings : List Node) (i : Nat) (n : Node) (types : Context) (ws : List Warning)
    (hi : siblings[i]? = some n) (hk : n.kind = .header) (j : Nat) (pd : PD (Out NamedType)) :
    parseNamed w siblings i ⟨ctx, {}, types, ws⟩ = .ok (j, pd) ↔
      ∃ rest t types' vs, TypeRead w types n (siblings.drop (i + 1)) t types' vs rest ∧ j + rest.length = siblings.length ∧
        pd = ⟨ctx, t, types', ws ++ vs⟩ := by
  have hlt : i < siblings.length := (List.getElem?_eq_some_iff.mp hi).1
  rw [named_at w siblings i ctx ws hi hk]
  constructor
  · intro h
    cases hq : namedMeaning w n (siblings.drop (i + 1)) types with
    | error e => rw [hq] at h; cases h
    | ok q =>
      obtain ⟨rest, o⟩ := q
      have hs := (named_suffix hq).length_le
      rw [List.length_drop] at hs
      rw [hq] at h
      cases h
      exact ⟨rest, _, _, _, named_iff.mp hq, by omega, rfl⟩
  · rintro ⟨rest, t, types', vs, h, hj, rfl⟩
    rw [named_iff (o := ⟨t, types', vs⟩) |>.mpr h]
    simp only [afterW, after, at_]
    rw [← hj, Nat.add_sub_cancel]

/-- C89: so there is one type, one list of warnings and one end at most that `TypeRead` allows; the blocks that are left are the last ones. -/
theorem C89_one (w : World) (types : Context) (n : Node) (ns rest rest' : List Node) (t t' : NamedType) (types₁ types₂ : Context)
    (vs ws : List Warning) (h : TypeRead w types n ns t types₁ vs rest) (h' : TypeRead w types n ns t' types₂ ws rest') :
    t = t' ∧ types₁ = types₂ ∧ vs = ws ∧ rest = rest' ∧ ∃ pre, ns = pre ++ rest := by
  have e1 := (named_iff (o := ⟨t, types₁, vs⟩)).mpr h
  have e2 := (named_iff (o := ⟨t', types₂, ws⟩)).mpr h'
  obtain ⟨pre, hp⟩ := named_suffix e1
  rw [e1] at e2
  simp only [Except.ok.injEq, Prod.mk.injEq, Out.mk.injEq] at e2
  exact ⟨e2.2.1, e2.2.2.1, e2.2.2.2, e2.1, pre, hp.symm⟩

theorem many_ends {σ : Type} {F : Node → List Node → σ → Except Stop (Option (List Node) × σ)} (hst : ∀ m ms x, Ends (F m ms x)) (hs : Suffixes F) :
    ∀ fuel (ms : List Node) x, ms.length ≤ fuel → Ends (many F fuel ms x) := by
  intro fuel
  induction fuel with
  | zero =>
    intro ms x hm
    cases ms with
    | nil => rw [many]; simp [Ends]
    | cons => simp at hm
  | succ fuel ih =>
    intro ms x hm
    cases ms with
    | nil => rw [many]; simp [Ends]
    | cons m ms =>
      rw [List.length_cons] at hm
      rw [many]
      have := hst m ms x
      split
      · intro h; cases h; exact this ‹_›
      · simp [Ends]
      · rename_i hx
        have := (hs _ _ _ _ _ hx).length_le
        exact ih _ _ (by omega)

theorem named_ends (w : World) (n : Node) (ns : List Node) (types : Context) : Ends (namedMeaning w n ns types) := by
  rw [namedMeaning_eq]
  have h1 : Ends (namedSignature n ⟨[], {}, types, []⟩) := by
    unfold namedSignature
    have := readSignature_ends Spec.LineKinds.typeLine n
    split
    · intro h; cases h; exact this ‹_›
    · simp [Ends]
  split
  · intro h; cases h; exact h1 ‹_›
  · rename_i o _
    have hst : ∀ m ms x, Ends (typeStep w (meaning w) (meaning w) m ms x) := by
      intro m ms x
      unfold typeStep
      split
      · unfold single
        have := memberStep_ends (meaning_ends w m) w x
        split
        · intro h; cases h; exact this ‹_›
        · simp [Ends]
      · split
        · have : ∀ t b, Ends (headed w (meaning w) t b m ms x.types) := by
            intro t b
            unfold headed
            rw [head_simple]
            have := typeSectionSign_ends m ⟨{ base := b }, x.types, []⟩
            split
            · intro h; cases h; exact this ‹_›
            · simp [Ends]
            · exact walk_ends (fun y _ d => typeSectionStep_ends (meaning_ends w y) w t d) _
          simp only
          have := this (recognise.typeSectionType m) (resolveBase m (recognise.typeSectionType m) x.node.base)
          split
          · intro h; cases h; exact this ‹_›
          · simp [Ends]
        · simp [Ends]
    have h2 : ∀ x, Ends (typeContent w (ns) x) := by
      intro x
      unfold typeContent
      have := walk_ends (ns := ns.takeWhile memberDescription) (fun y _ d => describe_ends w y d) x
      split
      · intro h; cases h; exact this ‹_›
      · simp [Ends]
      · exact many_ends hst (typeStep_suffixes w _ _) _ _ _ (Nat.le_refl _)
    have := h2 ⟨⟨o.node.sections, o.node.type.base⟩, o.types, []⟩
    split
    · intro h; cases h; exact this ‹_›
    · simp [Ends]

/-- C89: reading ends: the parser gives a type or says why not. -/
theorem C89_decides (w : World) (ctx : List SectionType) (siblings : List Node) (i : Nat) (n : Node) (types : Context) (ws : List Warning)
    (hi : siblings[i]? = some n) (hk : n.kind = .header) : parseNamed w siblings i ⟨ctx, {}, types, ws⟩ ≠ .error .diverges := by
  rw [named_at w siblings i ctx ws hi hk]
  have h := named_ends w n (siblings.drop (i + 1)) types
  intro hx
  cases hq : namedMeaning w n (siblings.drop (i + 1)) types with
  | error e =>
    rw [hq] at hx h
    simp only [afterW, at_, Except.error.injEq] at hx
    exact h (by rw [hx])
  | ok q => rw [hq] at hx; cases hx

/-! ## Where a type ends -/

/-- A block at which a named type ends: a header that is no section of it (or that has no place in it), or a block that its base type does not allow. -/
inductive TypeEnd (b : Base) (n : Node) : Prop
  | header : n.kind = .header → ¬ IsHeading n → TypeEnd b n
  | misplaced {t line under sig sw} : HeadingOf n t → Signed Spec.LineKinds.sectionLine n line under sig sw → Misplaced b sig.identifier → TypeEnd b n
  | oneOf : IsOneOf n → ¬ ObjectBase b → TypeEnd b n
  | scalar : IsPlain n ∨ IsText n → ScalarBase b → TypeEnd b n

theorem blocks_end {w : World} {b : Base} {ss ss' : List TypeSection} {types types' : Context} {ns rest : List Node} {ws : List Warning}
    (h : TypeBlocks w b ss types ns ss' types' ws rest) : ∀ n ∈ rest.head?, TypeEnd b n := by
  induction h with
  | done => intro n hn; cases hn
  | member _ _ _ _ _ ih => exact ih
  | describe _ _ _ _ _ ih => exact ih
  | heading _ _ _ ih => exact ih
  | misplaced h1 h2 h3 => intro n hn; cases hn; exact .misplaced h1 h2 h3
  | halt _ hh _ =>
    intro n hn; cases hn
    cases hh with
    | header h1 h2 => exact .header h1 h2
    | oneOf h1 h2 => exact .oneOf h1 h2
    | scalar h1 h2 => exact .scalar h1 h2

/-- C89: nothing is left, or a block is next that is not of the type. -/
theorem C89_ends (w : World) (types : Context) (n : Node) (ns rest : List Node) (t : NamedType) (types' : Context) (ws : List Warning)
    (h : TypeRead w types n ns t types' ws rest) : ∀ m ∈ rest.head?, TypeEnd t.type.base m := by
  cases h with
  | mk _ _ _ hc =>
    cases hc with
    | blocks _ hb => exact blocks_end hb
    | text _ _ hb => exact blocks_end hb

/-- C89: of objects, all blocks up to the next header are taken. -/
theorem C89_ends_object (w : World) (types : Context) (n : Node) (ns rest : List Node) (t : NamedType) (types' : Context) (ws : List Warning)
    (h : TypeRead w types n ns t types' ws rest) (hb : ObjectBase t.type.base) : ∀ m ∈ rest.head?, m.kind = .header := by
  intro m hm
  cases C89_ends w types n ns rest t types' ws h m hm with
  | header h _ => exact h
  | misplaced h => exact headingOf_header h
  | oneOf _ h => exact absurd hb h
  | scalar _ h => exact absurd h (object_not hb).2.1

/-! ## The usual type -/

theorem properties_type {w : World} {types types' : Context} {ns : List Node} {es : List Element} {ws : List Warning}
    (h : Properties w types ns es types' ws) {b : Base} (hb : ObjectBase b) {rest : List Node} (hr : ∀ m ∈ rest.head?, m.kind = .header ∧ ¬ IsHeading m) :
    ∀ fs, TypeBlocks w b [membersOf fs] types (ns ++ rest) [membersOf (fs ++ es)] types' ws rest := by
  induction h with
  | nil =>
    intro fs
    rw [List.append_nil]
    cases rest with
    | nil => exact .done
    | cons m rest => exact .halt (.inr (hr m rfl).1) (.header (hr m rfl).1 (hr m rfl).2) .nothing
  | cons h1 h2 h3 _ ih =>
    intro fs
    refine .member (open_members fs) (fun ⟨t, ht⟩ => (plain_not h1).2.2.1 t ht) (.property h1 hb h2 h3) (.more (ss := []) (d := []) (v := [])) ?_
    have := ih (fs ++ [PropertyNode.made (Out.node ‹_›)])
    rw [List.append_assoc] at this
    exact this

/-- C89: list items after the header of an object are its properties: all of them, in their order, up to the next header, with all their warnings. -/
theorem C89_properties (w : World) (types types' : Context) (n : Node) (ns rest : List Node) (line under : Bytes) (sig : Signature.Signature)
    (type : Mson.TypeDef) (sw rs : List Warning) (es : List Element) (ws : List Warning)
    (hs : Signed Spec.LineKinds.typeLine n line under sig sw) (ht : Typed (Mson.parseTypeDefinition types sig.attributes).1 type) (hb : ObjectBase type.base)
    (hrs : Reports n.text (Mson.parseValue sig.identifier).literal rs) (hne : ns ≠ [])
    (hm : Properties w { (Mson.parseTypeDefinition types sig.attributes).2.1 with context := (Mson.parseValue sig.identifier).literal } ns es types' ws)
    (hr : ∀ m ∈ rest.head?, m.kind = .header ∧ ¬ IsHeading m) :
    ∃ t vs, TypeRead w types n (ns ++ rest) t { types' with context := [] } (vs ++ rs ++ ws) rest ∧
      t.name.literal = (Mson.parseValue sig.identifier).literal ∧ t.type = type ∧ t.sections = [membersOf es] := by
  cases hm with
  | nil => exact absurd rfl hne
  | @cons _ _ _ ws₁ _ es₁ _ vs h1 h2 h3 hp =>
    refine ⟨_, _, .mk hs ht hrs (.blocks ?_ (.member (by simp [Open]) (fun ⟨t, ht⟩ => (plain_not h1).2.2.1 t ht) (.property h1 hb h2 h3)
      (.first (by simp)) (properties_type hp hb hr [_]))), rfl, rfl, rfl⟩
    intro m hm
    cases hm
    exact (plain_not h1).2.2.2.1

/-! ## What cannot be read -/

/-- C89: a type section that is a list item right under the header cannot be read: the parser is one for headers, and the whole document is given up. -/
theorem C89_item_section (w : World) (ctx : List SectionType) (siblings : List Node) (i : Nat) (n m : Node) (types : Context) (ws : List Warning)
    (hi : siblings[i]? = some n) (hk : n.kind = .header) (hm : siblings[i + 1]? = some m) (t : SectionType) (ht : IsPart m t)
    (line under : Bytes) (sig : Signature.Signature) (sw : List Warning) (hs : Signed Spec.LineKinds.typeLine n line under sig sw) :
    parseNamed w siblings i ⟨ctx, {}, types, ws⟩ = .error .thrown := by
  rw [named_at w siblings i ctx ws hi hk, namedMeaning_eq]
  unfold namedSignature
  rw [(signed_iff (by decide)).mpr ⟨line, under, sig, hs, rfl⟩]
  rw [Payload.drop_cons hm]
  unfold typeContent
  have hd : ¬ memberDescription m = true := fun h => (part_not ht).2.2.2.1 ((description_iff m).mp h)
  rw [List.takeWhile_cons_of_neg hd, List.dropWhile_cons_of_neg hd]
  simp only [walk, List.length_cons]
  rw [many, typeStep]
  have hu : recognise.typeSectionType m = t := (part_iff (part_item ht) (part_ne ht).1).mpr ht
  rw [if_neg (by rw [hu]; exact (part_ne ht).1), if_neg (part_not ht).2.2.2.2]
  rfl

/-! ## Examples -/

/-- A header. -/
def mhead (s : String) : Node := .mk .header (str s) [⟨0, 1⟩] []

theorem read_of {n : Node} {ns : List Node} {p : List Node × Out NamedType → Bool} (h : (namedMeaning msonWorld n ns noTypes).toOption.any p = true) :
    ∃ t types' ws rest, TypeRead msonWorld noTypes n ns t types' ws rest ∧ p (rest, ⟨t, types', ws⟩) = true := by
  obtain ⟨⟨rest, t, types', ws⟩, h1, h2⟩ := any_ok h
  exact ⟨t, types', ws, rest, named_iff.mp h1, h2⟩

/-- An object with a member and a sample under a heading; the next header is not of it. -/
example : ∃ t types' ws rest, TypeRead msonWorld noTypes (mhead "A") [mitem [mpara "b: 1"], mhead "Sample", mitem [mpara "b: 2"], mhead "B"] t types' ws rest ∧
    (rest.length == 1 && t.sections.length == 2 && ws.isEmpty) = true :=
  read_of (p := fun x => x.1.length == 1 && x.2.node.sections.length == 2 && x.2.warnings.isEmpty) (by decide +kernel)

/-- A name with a character that is reserved, and a section that has no place in an object: two warnings, and the section is left. -/
example : ∃ t types' ws rest, TypeRead msonWorld noTypes (mhead "A-b") [mitem [mpara "b"], mhead "Items"] t types' ws rest ∧
    (rest.length == 1 && t.sections.length == 1 && ws.length == 2) = true :=
  read_of (p := fun x => x.1.length == 1 && x.2.node.sections.length == 1 && x.2.warnings.length == 2) (by decide +kernel)

theorem signed_of {n : Node} (h : (readSignature Spec.LineKinds.typeLine n).toOption.isSome = true) : ∃ line under sig sw, Signed Spec.LineKinds.typeLine n line under sig sw := by
  cases hr : readSignature Spec.LineKinds.typeLine n with
  | error e => rw [hr] at h; cases h
  | ok q =>
    obtain ⟨s, ws⟩ := q
    obtain ⟨line, under, sig, hs, _⟩ := (signed_iff (by decide)).mp hr
    exact ⟨line, under, sig, ws, hs⟩

/-- The hypotheses of `C89_properties` are met. -/
example : ∃ line under sig sw type rs es types' ws, Signed Spec.LineKinds.typeLine (mhead "A") line under sig sw ∧
    Typed (Mson.parseTypeDefinition noTypes sig.attributes).1 type ∧ ObjectBase type.base ∧
    Reports (mhead "A").text (Mson.parseValue sig.identifier).literal rs ∧
    Properties msonWorld { (Mson.parseTypeDefinition noTypes sig.attributes).2.1 with context := (Mson.parseValue sig.identifier).literal }
      [mitem [mpara "b: 1"], mitem [mpara "c"]] es types' ws ∧ es.length = 2 := by
  have h : (readSignature Spec.LineKinds.typeLine (mhead "A")).toOption.any (fun q =>
      (objectBase (Mson.parseTypeDefinition noTypes q.1.attributes).1).base = .implicitObject &&
      ((meaning msonWorld).property (mitem [mpara "b: 1"])
        { (Mson.parseTypeDefinition noTypes q.1.attributes).2.1 with context := (Mson.parseValue q.1.identifier).literal }).toOption.any fun o =>
        ((meaning msonWorld).property (mitem [mpara "c"]) o.types).toOption.any fun _ => true) = true := by decide +kernel
  obtain ⟨⟨s, ws⟩, hs, h⟩ := any_ok h
  obtain ⟨line, under, sig, hsig, rfl⟩ := (signed_iff (by decide)).mp hs
  simp only [Bool.and_eq_true, decide_eq_true_eq] at h
  obtain ⟨h1, h2⟩ := h
  obtain ⟨o, ho, h3⟩ := any_ok h2
  obtain ⟨p, hp, _⟩ := any_ok h3
  exact ⟨line, under, sig, _, _, _, _, _, _, hsig, typed_iff.mpr rfl, .inr h1, reports_iff.mpr rfl,
    .cons (plain_of rfl (by decide +kernel)) (readProperty_iff.mpr ho) (doubt_iff.mpr rfl)
      (.cons (plain_of rfl (by decide +kernel)) (readProperty_iff.mpr hp) (doubt_iff.mpr rfl) .nil), rfl⟩

/-- The hypotheses of `C89_item_section` are met. -/
example : IsPart (mitem [mpara "Properties", mitem [mpara "c"]]) .msonPropertyMembers ∧ ∃ line under sig sw, Signed Spec.LineKinds.typeLine (mhead "A") line under sig sw :=
  ⟨(part_iff rfl (by decide)).mp (by decide +kernel), signed_of (by decide +kernel)⟩

end Verif.Props
