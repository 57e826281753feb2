import Verif.Proof.MsonSections
import Verif.Props.C83

/-!
# C84: what the sections of a data structure are made of

`Default`, `Sample`, `Items`, `Members` and `Properties`, `One of` and `Include`.
-/

namespace Verif.Props
open Verif Verif.Text Verif.Section Verif.MsonParser Verif.Spec Verif.Spec.MsonParser
open Verif.Mson (Base Context TypeDef)
open Verif.DataStructure (Klass Element)
open Verif.Spec.Payload (Parts)

theorem known_of {t : SectionType} (h : t = .msonSampleDefault ∨ t = .msonValueMembers ∨ t = .msonPropertyMembers) : Known t := by
  rcases h with h | h | h <;> simp [Known, h]

theorem parts_unique {n sig sig' : Node} {bs bs' : List Node} (h : Parts n sig bs) (h' : Parts n sig' bs') : sig = sig' ∧ bs = bs' := by
  rw [Payload.parts_iff] at h h'
  have := h.2.symm.trans h'.2
  exact ⟨(List.cons.inj this).1, (List.cons.inj this).2⟩

/-- A section is what its line says with what is under it; one with no place there is nothing, whatever is under it. -/
theorem C84_section (w : World) (t : SectionType) (ht : t = .msonSampleDefault ∨ t = .msonValueMembers ∨ t = .msonPropertyMembers) (b : Base)
    (n : Node) (types : Context) (o : Out Draft) :
    ReadPart w t b n types o ↔ ∃ sig blocks line rest s sw, Parts n sig blocks ∧ Signed Spec.LineKinds.sectionLine sig line rest s sw ∧
      ((Misplaced b s.identifier ∧ o = ⟨{ base := b }, types, sw ++ [.notAllowed s.identifier]⟩) ∨
        ∃ d hs v es types' ws, Heading b s rest d hs ∧ PartBlocks w t b d.value d.elements types blocks v es types' ws ∧
          o = ⟨{ d with value := v, elements := es }, types', sw ++ hs ++ ws⟩) :=
  part_spec (known_of ht)

/-- A `One of` is the elements under it. -/
theorem C84_one_of (w : World) (n : Node) (types : Context) (o : Out (List Element)) :
    ReadOneOf w n types o ↔ ∃ sig blocks line rest s sw es types' ws vs, Parts n sig blocks ∧ Signed Spec.LineKinds.choiceLine sig line rest s sw ∧
      Choices w [] types blocks es types' ws ∧ EmptyChoice es vs ∧
      o = ⟨es, types', sw ++ ws ++ vs⟩ := oneOf_spec

/-- An `Include` is the type it names. -/
theorem C84_include (w : World) (n : Node) (types : Context) (o : Out TypeDef) :
    ReadInclude w n types o ↔ ∃ sig blocks line rest s sw atts t types' vs types'' ws xs, Parts n sig blocks ∧
      Signed Spec.LineKinds.typeLine sig line rest s sw ∧ Included s.identifier s.attributes atts ∧ Mson.parseTypeDefinition types atts = (t, types', vs) ∧
      Notes types' t types'' ∧ NotIncluded t ws ∧ Stray blocks xs ∧
      o = ⟨t, types'', sw ++ vs.map .type ++ ws ++ xs⟩ := include_spec

/-! ## Nothing is lost -/

theorem elements_blocks {w : World} {t : SectionType} {b : Base} {types types' : Context} {ns : List Node} {es : List Element} {ws : List Warning}
    (h : Elements w t b types ns es types' ws) (v : Bytes) : ∀ fs, PartBlocks w t b v fs types ns v (fs ++ es) types' ws := by
  induction h with
  | nil => intro fs; rw [List.append_nil]; exact .done
  | @cons types n e types₁ ws₁ ns es types₂ vs h1 _ ih =>
    intro fs
    refine .element h1 ?_
    have := ih (fs ++ [e])
    rwa [List.append_assoc] at this

/-- The elements under a section are its elements: all of them, in their order, after those on its line, with all their warnings. -/
theorem C84_section_elements (w : World) (t : SectionType) (ht : t = .msonSampleDefault ∨ t = .msonValueMembers ∨ t = .msonPropertyMembers)
    (b : Base) (n sig : Node) (blocks : List Node) (line rest : Bytes) (s : Signature.Signature) (d : Draft) (sw hs ws : List Warning)
    (types types' : Context) (es : List Element) (hp : Parts n sig blocks) (hsig : Signed Spec.LineKinds.sectionLine sig line rest s sw)
    (hd : Heading b s rest d hs) (he : Elements w t b types blocks es types' ws) :
    ReadPart w t b n types ⟨{ d with elements := d.elements ++ es }, types', sw ++ hs ++ ws⟩ :=
  (C84_section w t ht b n types _).mpr ⟨sig, blocks, line, rest, s, sw, hp, hsig,
    .inr ⟨d, hs, d.value, _, types', ws, hd, elements_blocks he d.value d.elements, rfl⟩⟩

theorem offered_choices {w : World} {types types' : Context} {ns : List Node} {es : List Element} {ws : List Warning}
    (h : Offered w types ns es types' ws) : ∀ fs, Choices w fs types ns (fs ++ es) types' ws := by
  induction h with
  | nil => intro fs; rw [List.append_nil]; exact .done
  | @cons types n e types₁ ws₁ ns es types₂ vs h1 _ ih =>
    intro fs
    refine .element h1 ?_
    have := ih (fs ++ [e])
    rwa [List.append_assoc] at this

/-- The elements under a `One of` are what it offers: all of them, in their order. -/
theorem C84_one_of_elements (w : World) (n sig : Node) (blocks : List Node) (line rest : Bytes) (s : Signature.Signature)
    (types types' : Context) (es : List Element) (sw ws : List Warning) (hp : Parts n sig blocks) (hsig : Signed Spec.LineKinds.choiceLine sig line rest s sw)
    (he : Offered w types blocks es types' ws) (hne : es ≠ []) :
    ReadOneOf w n types ⟨es, types', sw ++ ws⟩ :=
  (C84_one_of w n types _).mpr ⟨sig, blocks, line, rest, s, sw, es, types', ws, [], hp, hsig, offered_choices he [], .some hne,
    by rw [List.append_nil]⟩

/-- What is under an `Include` never counts: each block gives a warning and nothing else. -/
theorem C84_include_blocks (w : World) (n m sig : Node) (blocks bs : List Node) (types : Context) (o p : Out TypeDef)
    (hn : Parts n sig blocks) (hm : Parts m sig bs) (ho : ReadInclude w n types o) (hp : ReadInclude w m types p) :
    p.node = o.node ∧ p.types = o.types ∧ ∃ ws xs ys, o.warnings = ws ++ xs ∧ p.warnings = ws ++ ys ∧
      xs.length = blocks.length ∧ ys.length = bs.length := by
  have len : ∀ {ns ws}, Stray ns ws → ws.length = ns.length := by
    intro ns ws h
    induction h with
    | nil => rfl
    | header _ _ ih => simp [ih]
    | other _ _ ih => simp [ih]
  rw [readInclude_iff, (meaning_layer w _).mixin] at ho hp
  simp only [layer] at ho hp
  rw [item_iff] at ho hp
  obtain ⟨sig₁, blocks₁, hp₁, ho⟩ := ho
  obtain ⟨sig₂, blocks₂, hp₂, hp⟩ := hp
  obtain ⟨rfl, rfl⟩ := parts_unique hn hp₁
  obtain ⟨rfl, rfl⟩ := parts_unique hm hp₂
  have nf : ∀ {q}, signed mixinSign sig ⟨{}, types, []⟩ ≠ .ok (false, q) := by
    intro q h
    unfold signed at h
    split at h <;> cases h
  rcases ho with ho | ⟨o₁, r₁, o₂, h1, h2, rfl⟩
  · exact absurd ho nf
  rcases hp with hp | ⟨p₁, r₂, p₂, h3, h4, rfl⟩
  · exact absurd hp nf
  rw [h1] at h3; cases h3
  obtain ⟨a, types₁, ws₁⟩ := o₁
  rw [walk_frame mixinStep_frame] at h2 h4
  cases hw : walk mixinStep blocks ⟨a, types₁, []⟩ with
  | error e => rw [hw] at h2; cases h2
  | ok q =>
    cases hv : walk mixinStep bs ⟨a, types₁, []⟩ with
    | error e => rw [hv] at h4; cases h4
    | ok q' =>
      rw [hw] at h2; rw [hv] at h4
      obtain ⟨_, xs, hx, hqe⟩ := stray_iff.mp (show walk mixinStep blocks _ = .ok (q.1, q.2) from hw)
      obtain ⟨_, ys, hy, hqe'⟩ := stray_iff.mp (show walk mixinStep bs _ = .ok (q'.1, q'.2) from hv)
      obtain ⟨q1, q2⟩ := q
      obtain ⟨q1', q2'⟩ := q'
      simp only at hqe hqe'
      subst hqe hqe'
      cases h2; cases h4
      exact ⟨rfl, rfl, ws₁, xs, ys, rfl, rfl, len hx, len hy⟩

/-! ## Cases -/

/-- `Properties` with `b` under it, in an object. -/
example : ∃ line rest s sw d hs es types' ws, Parts (mitem [mpara "Properties", mitem [mpara "b"]]) (mpara "Properties") [mitem [mpara "b"]] ∧
    Signed Spec.LineKinds.sectionLine (mpara "Properties") line rest s sw ∧ Heading .object s rest d hs ∧ d.klass = .members ∧
    Elements msonWorld .msonPropertyMembers .object noTypes [mitem [mpara "b"]] es types' ws ∧ es.length = 1 := by
  have h : (readSignature Spec.LineKinds.sectionLine (mpara "Properties")).toOption.any (fun q => q.1.identifier = str "Properties") = true := by
    decide +kernel
  obtain ⟨⟨s', vs⟩, hr, hi⟩ := any_ok h
  obtain ⟨line, rest, s, hs, rfl⟩ := (signed_iff (by decide)).mp hr
  have h : ((meaning msonWorld).property (mitem [mpara "b"]) noTypes).toOption.any (fun _ => true) = true := by decide +kernel
  obtain ⟨o, ho, _⟩ := any_ok h
  have hpl : IsPlain (mitem [mpara "b"]) := plain_of rfl (by decide +kernel)
  refine ⟨line, rest, s, _, _, _, _, _, _, ⟨rfl, .inl ⟨[], rfl, by simp, ⟨_, _, rfl, by decide⟩⟩⟩, hs,
    .members (.properties ?_ (.inl rfl)), rfl, .cons (.property ⟨hpl.1, hpl.2.2.2.2.2, hpl.2.2.2.2.1⟩ (.inl rfl) (readProperty_iff.mpr ho)) .nil, rfl⟩
  have : s.identifier = str "Properties" := by simpa using hi
  rw [this]
  exact Headers.iEqual_iff.mp (by decide +kernel)

/-- The same in a list. -/
example : ∃ line rest s sw, Signed Spec.LineKinds.sectionLine (mpara "Properties") line rest s sw ∧ Misplaced .value s.identifier := by
  have h : (readSignature Spec.LineKinds.sectionLine (mpara "Properties")).toOption.any (fun q => q.1.identifier = str "Properties") = true := by
    decide +kernel
  obtain ⟨⟨s', vs⟩, hr, hi⟩ := any_ok h
  obtain ⟨line, rest, s, hs, rfl⟩ := (signed_iff (by decide)).mp hr
  have : s.identifier = str "Properties" := by simpa using hi
  refine ⟨line, rest, s, _, hs, .properties ?_ (by simp [ObjectBase])⟩
  rw [this]
  exact Headers.iEqual_iff.mp (by decide +kernel)

/-- `One of` with `b` and `c` under it. -/
example : ∃ line rest s sw es types' ws, Parts (mitem [mpara "One of", mitem [mpara "b"], mitem [mpara "c"]]) (mpara "One of")
      [mitem [mpara "b"], mitem [mpara "c"]] ∧ Signed Spec.LineKinds.choiceLine (mpara "One of") line rest s sw ∧
    Offered msonWorld noTypes [mitem [mpara "b"], mitem [mpara "c"]] es types' ws ∧ es.length = 2 := by
  have h : (readSignature Spec.LineKinds.choiceLine (mpara "One of")).toOption.any (fun _ => true) = true := by decide +kernel
  obtain ⟨⟨s', vs⟩, hr, _⟩ := any_ok h
  obtain ⟨line, rest, s, hs, rfl⟩ := (signed_iff (by decide)).mp hr
  have h : ((meaning msonWorld).property (mitem [mpara "b"]) noTypes).toOption.any (fun o =>
      ((meaning msonWorld).property (mitem [mpara "c"]) o.types).toOption.any fun _ => true) = true := by decide +kernel
  obtain ⟨o, ho, h⟩ := any_ok h
  obtain ⟨p, hp, _⟩ := any_ok h
  exact ⟨line, rest, s, _, _, _, _, ⟨rfl, .inl ⟨[], rfl, by simp, ⟨_, _, rfl, by decide⟩⟩⟩, hs,
    .cons (.property (plain_of rfl (by decide +kernel)) (readProperty_iff.mpr ho))
      (.cons (.property (plain_of rfl (by decide +kernel)) (readProperty_iff.mpr hp)) .nil), rfl⟩

/-- `Include A` includes `A`; what is under it is ignored. -/
example : (∃ o, ReadInclude msonWorld (mitem [mpara "Include A"]) noTypes o ∧ o.node.spec.name.literal = str "A" ∧ o.warnings = [.primitiveMixin]) ∧
    ∃ o, ReadInclude msonWorld (mitem [mpara "Include A", mpara "x"]) noTypes o ∧ o.warnings = [.primitiveMixin, .unrecognised] := by
  have h : ((meaning msonWorld).mixin (mitem [mpara "Include A"]) noTypes).toOption.any
      (fun o => o.node.spec.name.literal = str "A" && o.warnings = [.primitiveMixin]) = true := by decide +kernel
  obtain ⟨o, ho, h⟩ := any_ok h
  have h' : ((meaning msonWorld).mixin (mitem [mpara "Include A", mpara "x"]) noTypes).toOption.any
      (fun o => decide (o.warnings = [.primitiveMixin, .unrecognised])) = true := by decide +kernel
  obtain ⟨p, hp, h'⟩ := any_ok h'
  simp only [Bool.and_eq_true, decide_eq_true_eq] at h h'
  exact ⟨⟨o, readInclude_iff.mpr ho, h⟩, p, readInclude_iff.mpr hp, h'⟩

end Verif.Props
