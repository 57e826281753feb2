import Verif.Proof.ParametersValues
import Verif.Proof.MsonWalk
import Verif.Proof.NamedTypeSpec
import Verif.Props.C82

/-! # One parameter -/

namespace Verif.ParametersParser
open Verif Verif.Text Verif.Section Verif.Recognition Verif.Spec Verif.Spec.Recognition Verif.Spec.MsonParser Verif.Props
open Verif.Spec.ParametersParser
open Verif.MsonParser (World walk moved itemResult trimmed_iff signed_iff source_iff follows_iff readSignature separated
  sourceOf parseTypeSection Draft meaning readPart_iff)
open Verif.Parameters (Parameter)
open Verif.Mson (Context)
open Verif.Payload (outcome)
open Verif.Signature (Signature)

/-! ## Descriptions -/

/-- One block of a description. -/
def describeStep (w : World) (n : Node) (o : Out Parameter) : Except Stop (Bool × Out Parameter) :=
  match separated o.node.description with
  | .error e => .error e
  | .ok s => .ok (true, { o with node := { o.node with description := s ++ trim (sourceOf w n) } })

theorem description_step {w : World} {ns : List Node} {i : Nat} {n : Node} {ctx : List SectionType} (d : Out Parameter) (hi : ns[i]? = some n) :
    description w ns i ⟨ctx, d⟩ = moved i ctx (describeStep w n d) := by
  unfold description describeStep
  rw [hi]
  simp only
  cases separated d.node.description <;> rfl

theorem describeStep_true {w : World} (m : Node) (a : Out Parameter) (c : Bool) (a' : Out Parameter) (h : describeStep w m a = .ok (c, a')) :
    c = true := by
  unfold describeStep at h
  split at h
  · cases h
  · cases h; rfl

theorem described_iff {w : World} : ∀ {ds : List Node} {p : Parameter} {types : Context} {ws : List Warning} {o : Out Parameter},
    walk (describeStep w) ds ⟨p, types, ws⟩ = .ok ([], o) ↔
      ∃ d, Described w p.description ds d ∧ o = ⟨{ p with description := d }, types, ws⟩
  | [], p, types, ws, o => by
    rw [walk]
    simp only [Except.ok.injEq, Prod.mk.injEq, true_and]
    constructor
    · rintro rfl; exact ⟨_, .nil, rfl⟩
    · rintro ⟨d, h, rfl⟩; cases h; rfl
  | n :: ds, p, types, ws, o => by
    rw [walk, describeStep]
    simp only
    cases hs : separated p.description with
    | error e =>
      simp only [reduceCtorEq, false_iff, not_exists, not_and]
      intro d h
      cases h with
      | cons h1 h2 h3 =>
        obtain ⟨x, hx, -⟩ := follows_iff.mp h2
        rw [hs] at hx; cases hx
    | ok x =>
      simp only
      rw [described_iff]
      constructor
      · rintro ⟨d, h, rfl⟩
        exact ⟨d, .cons (source_iff.mpr rfl) (follows_iff.mpr ⟨x, hs, rfl⟩) h, rfl⟩
      · rintro ⟨d, h, rfl⟩
        cases h with
        | cons h1 h2 h3 =>
          obtain ⟨y, hy, rfl⟩ := follows_iff.mp h2
          rw [hs] at hy; cases hy
          rw [source_iff] at h1; subst h1
          exact ⟨d, h3, rfl⟩

/-! ## Traits and checks -/

/-- What the checks report. -/
def checks (p : Parameter) : List Warning :=
  (if Parameters.defaultClash p then [.clash p.name] else []) ++
    match Parameters.valuesWarning p with
    | some t => [.notAmong t]
    | none => []

theorem checks_iff {p : Parameter} {ws : List Warning} : (∃ cw uw, Clash p cw ∧ Unlisted p uw ∧ ws = cw ++ uw) ↔ ws = checks p := by
  have hc : ∀ cw, Clash p cw ↔ cw = if Parameters.defaultClash p then [.clash p.name] else [] := by
    intro cw
    have hd : Parameters.defaultClash p = true ↔ p.use ≠ .optional ∧ p.defaultValue ≠ [] := by
      unfold Parameters.defaultClash; simp
    constructor
    · intro h
      cases h with
      | yes h1 h2 => rw [if_pos (hd.mpr ⟨h1, h2⟩)]
      | no h => rw [if_neg fun h' => h (hd.mp h')]
    · rintro rfl
      split
      · rename_i h; exact .yes (hd.mp h).1 (hd.mp h).2
      · rename_i h; exact .no fun h' => h (hd.mpr h')
  have hu : ∀ uw, Unlisted p uw ↔ uw = match Parameters.valuesWarning p with
      | some t => [.notAmong t]
      | none => [] := by
    intro uw
    constructor
    · intro h
      cases h with
      | yes h => rw [h]
      | no h => rw [h]
    · rintro rfl
      cases h : Parameters.valuesWarning p with
      | some t => exact .yes h
      | none => exact .no h
  simp only [hc, hu]
  constructor
  · rintro ⟨_, _, rfl, rfl, rfl⟩; rfl
  · rintro rfl; exact ⟨_, _, rfl, rfl, rfl⟩

theorem checkParameter_eq (o : Out Parameter) : checkParameter o = o.warn (checks o.node) := rfl

/-- What the traits report. -/
def traitWarnings (old : Bool) (as : List Bytes) (e : Bytes) : List Warning :=
  if (Parameters.parseAttributes old as e).2 then [.badTraits old] else []

/-- The parameter with the traits. -/
def attributed (old : Bool) (as : List Bytes) (p : Parameter) : Parameter :=
  let r := (Parameters.parseAttributes old as p.exampleValue).1
  { p with use := r.use, type := r.type, exampleValue := r.exampleValue }

theorem attributed_iff {old : Bool} {as : List Bytes} {p q : Parameter} {ws : List Warning} :
    Attributed old as p q ws ↔ q = attributed old as p ∧ ws = traitWarnings old as p.exampleValue := by
  unfold Attributed attributed traitWarnings
  cases h : Parameters.parseAttributes old as p.exampleValue with
  | mk r bad =>
    constructor
    · rintro ⟨r', bad', he, rfl, hb⟩
      cases he
      refine ⟨rfl, ?_⟩
      rcases hb with ⟨rfl, rfl⟩ | ⟨rfl, rfl⟩ <;> rfl
    · rintro ⟨rfl, rfl⟩
      refine ⟨r, bad, rfl, rfl, ?_⟩
      cases bad
      · exact .inr ⟨rfl, rfl⟩
      · exact .inl ⟨rfl, rfl⟩

theorem under_iff {content rest close text : Bytes} : Under content rest close text ↔
    text = if rest.isEmpty then content else content ++ str "\n" ++ rest ++ close := by
  cases rest with
  | nil =>
    constructor
    · intro h
      cases h with
      | nothing _ => rfl
      | text h => exact absurd rfl h
    · rintro rfl; exact .nothing rfl
  | cons c r =>
    constructor
    · intro h
      cases h with
      | nothing h => cases h
      | text _ => rfl
    · rintro rfl; exact .text (by simp)

/-! ## The old syntax -/

theorem isValues_iff {n : Node} : IsValues n ↔ recognise.valuesType n = .values := by
  rw [(C77_sections n).2.2.2.2.2.1]
  constructor
  · rintro ⟨text, s, h1, h2, h3⟩; exact ⟨s, ⟨text, h1, h2⟩, h3⟩
  · rintro ⟨s, ⟨text, h1, h2⟩, h3⟩; exact ⟨text, s, h1, h2, h3⟩

theorem valuesType_or (n : Node) : recognise.valuesType n = .values ∨ recognise.valuesType n = .undefined := by
  unfold Recognise.valuesType Recognise.ofList Recognise.when
  split
  · split <;> simp
  · simp

/-- One block after the description. -/
def oldStep (n : Node) (o : Out Parameter) : Except Stop (Bool × Out Parameter) :=
  if recognise.valuesType n = .undefined then .ok (true, o.warn [ignoredAs n])
  else
    match valuesItem n ⟨[], o.types, o.warnings ++ if o.node.values.isEmpty then [] else [.valuesAgain o.node.name]⟩ with
    | .error e => .error e
    | .ok v => .ok (true, ⟨{ o.node with values := v.node }, v.types, v.warnings ++ if v.node.isEmpty then [.noValues o.node.name] else []⟩)

theorem again_iff {p : Parameter} {ws : List Warning} : ValuesAgain p ws ↔ ws = if p.values.isEmpty then [] else [.valuesAgain p.name] := by
  constructor
  · intro h
    cases h with
    | yes h => rw [if_neg (by simpa using h)]
    | no h => rw [h]; rfl
  · rintro rfl
    split
    · rename_i h; exact .no (by simpa using h)
    · rename_i h; exact .yes (by simpa using h)

theorem noValues_iff {p : Parameter} {vs : List Bytes} {ws : List Warning} :
    NoValues p vs ws ↔ ws = if vs.isEmpty then [.noValues p.name] else [] := by
  constructor
  · intro h
    cases h with
    | yes => rfl
    | no h => rw [if_neg (by simpa using h)]
  · rintro rfl
    cases vs with
    | nil => exact .yes
    | cons => exact .no (by simp)

theorem oldBlocks_iff : ∀ {ns : List Node} {p : Parameter} {types : Context} {ws : List Warning} {o : Out Parameter},
    (∃ r, walk oldStep ns ⟨p, types, ws⟩ = .ok (r, o)) ↔ ∃ q us, OldBlocks p ns q us ∧ o = ⟨q, types, ws ++ us⟩
  | [], p, types, ws, o => by
    simp only [walk, Except.ok.injEq, Prod.mk.injEq]
    constructor
    · rintro ⟨_, rfl, rfl⟩; exact ⟨p, [], .nil, by simp⟩
    · rintro ⟨q, us, h, rfl⟩; cases h; exact ⟨_, rfl, by simp⟩
  | n :: ns, p, types, ws, o => by
    have e : ∀ x : Bool × Out Parameter, oldStep n ⟨p, types, ws⟩ = .ok x → x.1 = true → ((∃ r, walk oldStep (n :: ns) ⟨p, types, ws⟩ = .ok (r, o)) ↔
        ∃ r, walk oldStep ns x.2 = .ok (r, o)) := by
      rintro ⟨c, y⟩ hx hc
      cases hc
      rw [walk, hx]
    by_cases hu : recognise.valuesType n = .undefined
    · have hn : ¬ IsValues n := fun h => by rw [isValues_iff.mp h] at hu; cases hu
      rw [e (true, ⟨p, types, ws ++ [ignoredAs n]⟩) (by rw [oldStep, if_pos hu]; rfl) rfl, oldBlocks_iff]
      constructor
      · rintro ⟨q, us, h, rfl⟩
        exact ⟨q, _, .ignored hn (ignored_iff.mpr rfl) h, by simp⟩
      · rintro ⟨q, us, h, rfl⟩
        cases h with
        | values h _ _ _ _ _ => exact absurd h hn
        | ignored _ h1 h2 =>
          rw [ignored_iff] at h1; subst h1
          exact ⟨q, _, h2, by simp⟩
    · have hv : IsValues n := isValues_iff.mpr ((valuesType_or n).resolve_right hu)
      cases hr : valuesItem n ⟨[], types, ws ++ if p.values.isEmpty then [] else [.valuesAgain p.name]⟩ with
      | error er =>
        have : oldStep n ⟨p, types, ws⟩ = .error er := by
          unfold oldStep; rw [if_neg hu]; simp only [hr]
        rw [walk, this]
        simp only [reduceCtorEq, exists_false, false_iff, not_exists, not_and]
        intro q us h
        cases h with
        | values h1 h2 h3 h4 h5 h6 =>
          rw [valuesItem_iff.mpr ⟨_, _, _, _, h3, h4, rfl⟩] at hr; cases hr
        | ignored h _ _ => exact absurd hv h
      | ok v =>
        obtain ⟨sig, blocks, vs, xs, hp, hb, rfl⟩ := valuesItem_iff.mp hr
        rw [e (true, ⟨{ p with values := vs }, types, ws ++ (if p.values.isEmpty then [] else [.valuesAgain p.name]) ++ xs ++
          if vs.isEmpty then [.noValues p.name] else []⟩) (by unfold oldStep; rw [if_neg hu]; simp only [hr]; rfl) rfl, oldBlocks_iff]
        constructor
        · rintro ⟨q, us, h, rfl⟩
          exact ⟨q, _, .values hv (again_iff.mpr rfl) hp hb (noValues_iff.mpr rfl) h, by simp⟩
        · rintro ⟨q, us, h, rfl⟩
          cases h with
          | ignored h _ _ => exact absurd hv h
          | values h1 h2 h3 h4 h5 h6 =>
            rw [again_iff] at h2; subst h2
            rw [noValues_iff] at h5; subst h5
            have := hr.symm.trans (valuesItem_iff.mpr ⟨_, _, _, _, h3, h4, rfl⟩)
            simp only [List.nil_append, Except.ok.injEq, Out.mk.injEq, List.append_cancel_left_eq, true_and] at this
            obtain ⟨rfl, rfl⟩ := this
            exact ⟨q, _, h6, by simp⟩

theorem oldNested_step {ns : List Node} {i : Nat} {n : Node} {ctx : List SectionType} {last : SectionType} {w : World} (d : Out Parameter)
    (hi : ns[i]? = some n) : nestedStep (oldOwn w) true noChild ns n i last ⟨(oldOwn w).nestedType n :: ctx, d⟩ =
      moved i ((oldOwn w).nestedType n :: ctx) (oldStep n d) := by
  by_cases hu : recognise.valuesType n = .undefined
  · rw [step_unexpected (fun _ _ _ => rfl) hi hu, oldStep, if_pos hu]
  · have hv := (valuesType_or n).resolve_right hu
    have ht : (oldOwn w).nestedType n = .values := hv
    refine MsonParser.nestedStep_done (by rw [ht]; simp) ?_
    rw [ht]
    show oldNested ns i ⟨.values :: ctx, d⟩ = _
    unfold oldNested
    simp only [PD.top, ne_eq, not_true_eq_false, if_false]
    rw [parseValues_item _ hi, oldStep, if_neg hu]
    simp only [Out.warn]
    cases valuesItem n ⟨[], d.types, d.warnings ++ if d.node.values.isEmpty then [] else [.valuesAgain d.node.name]⟩ <;> rfl

/-- The list item as a whole. -/
def oldItem (w : World) (n : Node) (d : Out Parameter) : Except Stop (Out Parameter) :=
  itemResult (pass oldSignature) (fun n => recognise.isDescription recognise.valuesType [] n) (describeStep w) oldStep checkParameter n d

theorem parseOld_item {w : World} {siblings : List Node} {i : Nat} {n : Node} {ctx : List SectionType} (d : Out Parameter)
    (hi : siblings[i]? = some n) : parseOld w siblings i ⟨ctx, d⟩ = outcome i ctx (oldItem w n d) := by
  refine MsonParser.parse_list d hi ?_ ?_ ?_ ?_ ?_ ?_ ?_ ?_
  · intro ns j d hn; exact oneSignature_none (f := oldSignature) hn
  · intro ns j m d hm; 
    refine (oneSignature_some (f := oldSignature) hm).trans ?_
    cases pass oldSignature m d <;> rfl
  · intro n d; rfl
  · intro ns j m d hm _; exact description_step d hm
  · intro n t; rfl
  · intro ns j d; rfl
  · intro ns j m last d hm; exact oldNested_step d hm
  · intro ns j d; rfl

theorem isDescription_iff {f : Node → SectionType} {n : Node} : recognise.isDescription f [] n = true ↔ f n = .undefined := by
  unfold Recognise.isDescription
  split
  · rename_i h; simpa using h
  · rename_i h
    simp only [ne_eq, Classical.not_not] at h
    simp [h]

theorem pass_true {α : Type} {f : Node → Out α → Except Stop (Out α)} (m : Node) (a : Out α) (c : Bool) (a' : Out α)
    (h : pass f m a = .ok (c, a')) : c = true := by
  unfold pass at h
  split at h
  · cases h
  · cases h; rfl

theorem pass_iff {α : Type} {f : Node → Out α → Except Stop (Out α)} {m : Node} {a a' : Out α} : pass f m a = .ok (true, a') ↔ f m a = .ok a' := by
  unfold pass
  cases f m a <;> simp

theorem oldSignature_iff {n : Node} {types : Context} {ws : List Warning} {o : Out Parameter} :
    oldSignature n ⟨{ name := [] }, types, ws⟩ = .ok o ↔ ∃ line rest s sw text d p₀ tw, Signed oldTraits n line rest s sw ∧ Under s.content rest [] text ∧
      Trimmed text d ∧ Attributed true s.attributes { name := s.identifier, defaultValue := s.value } p₀ tw ∧
      o = ⟨{ p₀ with description := d }, types, ws ++ sw.map .mson ++ tw⟩ := by
  unfold oldSignature
  cases hr : readSignature oldTraits n with
  | error e =>
    simp only [reduceCtorEq, false_iff, not_exists, not_and]
    intro line rest s sw _ _ _ _ hs
    rw [(signed_iff (by decide)).mpr ⟨line, rest, s, hs, rfl⟩] at hr
    cases hr
  | ok q =>
    obtain ⟨s', v⟩ := q
    simp only [Except.ok.injEq]
    constructor
    · rintro rfl
      obtain ⟨line, rest, s, hs, rfl⟩ := (signed_iff (by decide)).mp hr
      refine ⟨line, rest, s, _, _, _, _, _, hs, under_iff.mpr rfl, trimmed_iff.mpr rfl, attributed_iff.mpr ⟨rfl, rfl⟩, ?_⟩
      simp only [withTraits, Out.warn, attributed, traitWarnings, List.append_nil]
    · rintro ⟨line, rest, s, sw, text, d, p₀, tw, hs, hu, ht, ha, rfl⟩
      rw [(signed_iff (by decide)).mpr ⟨line, rest, s, hs, rfl⟩] at hr
      cases hr
      rw [under_iff] at hu; subst hu
      rw [trimmed_iff] at ht; subst ht
      obtain ⟨rfl, rfl⟩ := attributed_iff.mp ha
      simp only [withTraits, Out.warn, attributed, traitWarnings, List.append_nil]

/-- A parameter of the old syntax. -/
theorem oldItem_iff {w : World} {n : Node} {types : Context} {ws : List Warning} {o : Out Parameter} :
    oldItem w n ⟨{ name := [] }, types, ws⟩ = .ok o ↔ ∃ p us, OldRead w n p us ∧ o = ⟨p, types, ws ++ us⟩ := by
  have hun : ∀ {l pre post}, Spec.Payload.Until IsValues l pre post ↔ pre = l.takeWhile _ ∧ post = l.dropWhile _ :=
    Payload.until_iff (p := fun n => recognise.isDescription recognise.valuesType [] n) fun n => by
      rw [isDescription_iff, isValues_iff]
      rcases valuesType_or n with h | h <;> rw [h] <;> simp
  unfold oldItem
  rw [item_iff pass_true describeStep_true]
  constructor
  · rintro ⟨sig, blocks, d₁, d₂, r, d₃, hp, h1, h2, h3, rfl⟩
    obtain ⟨line, rest, s, sw, text, d, p₀, tw, hs, hu, ht, ha, rfl⟩ := oldSignature_iff.mp (pass_iff.mp h1)
    obtain ⟨d', hd, rfl⟩ := described_iff.mp h2
    obtain ⟨q, us, hb, rfl⟩ := oldBlocks_iff.mp ⟨r, h3⟩
    obtain ⟨cw, uw, hc, hw, he⟩ := checks_iff.mpr (rfl : checks q = checks q)
    refine ⟨q, _, ⟨sig, blocks, line, rest, s, sw, text, d, _, _, d', p₀, tw, us, cw, uw, hp, hs, hu, ht, hun.mpr ⟨rfl, rfl⟩, hd, ha, hb, hc, hw, rfl⟩, ?_⟩
    rw [checkParameter_eq]
    simp [Out.warn, he, List.append_assoc]
  · rintro ⟨q, _, ⟨sig, blocks, line, rest, s, sw, text, d, ds, bs, d', p₀, tw, us, cw, uw, hp, hs, hu, ht, hun', hd, ha, hb, hc, hw, rfl⟩, rfl⟩
    obtain ⟨rfl, rfl⟩ := hun.mp hun'
    have he := checks_iff.mp ⟨cw, uw, hc, hw, rfl⟩
    obtain ⟨r, hr⟩ := oldBlocks_iff.mpr ⟨q, us, hb, rfl⟩
    refine ⟨sig, blocks, _, _, r, _, hp, pass_iff.mpr (oldSignature_iff.mpr ⟨line, rest, s, sw, text, d, p₀, tw, hs, hu, ht, ha, rfl⟩),
      described_iff.mpr ⟨d', hd, rfl⟩, hr, ?_⟩
    rw [checkParameter_eq]
    simp [Out.warn, ← he, List.append_assoc]

/-! ## The new syntax -/

theorem typed_item {n : Node} (h : recognise.typeSectionType n ≠ .undefined) (hk : n.kind ≠ .header) : n.kind = .listItem := by
  unfold Recognise.typeSectionType at h
  split at h
  · rename_i hx
    rcases hx with hx | hx
    · exact absurd hx.1 hk
    · exact hx.1
  · exact absurd rfl h

theorem typed_iff {n : Node} : Typed n ↔ recognise.typeSectionType n ≠ .undefined := by
  constructor
  · rintro (h | h) hu
    · exact (MsonParser.untyped_not hu).1 h
    · exact (MsonParser.untyped_not hu).2.1 h
  · intro h
    by_cases hk : n.kind = .header
    · exact .inr ((MsonParser.heading_iff hk).mp h)
    · exact .inl (MsonParser.part_some (typed_item h hk) h)

theorem part_type {n : Node} {t : SectionType} (h : IsPart n t) : recognise.typeSectionType n = t :=
  (MsonParser.part_iff (MsonParser.part_item h) (MsonParser.part_ne h).1).mpr h

theorem sample_type {n : Node} (h : IsSample n) : recognise.typeSectionType n = .msonSampleDefault := part_type (.sample h)
theorem items_type {n : Node} (h : IsItems n) : recognise.typeSectionType n = .msonValueMembers := part_type (.items h)

theorem sample_of {n : Node} (h : recognise.typeSectionType n = .msonSampleDefault) (hk : n.kind = .listItem) : IsSample n := by
  cases (MsonParser.part_iff hk (by simp)).mp h with
  | sample h => exact h

theorem items_of {n : Node} (h : recognise.typeSectionType n = .msonValueMembers) (hk : n.kind = .listItem) : IsItems n := by
  cases (MsonParser.part_iff hk (by simp)).mp h with
  | items h => exact h

theorem properties_iff {n : Node} : IsProperties n ∨ PropertiesHeading n ↔ recognise.typeSectionType n = .msonPropertyMembers := by
  constructor
  · rintro (h | ⟨h1, h2⟩)
    · exact part_type (.properties h)
    · have := (MsonParser.heading_iff h1.1).mpr h1
      rw [MsonParser.otherHeading_iff h1.1] at h2
      rcases MsonParser.typeSection_values n with h | h | h | h
      · exact absurd h this
      · exact absurd (.inl h) h2
      · exact absurd (.inr h) h2
      · exact h
  · intro h
    have hu : recognise.typeSectionType n ≠ .undefined := by rw [h]; simp
    by_cases hk : n.kind = .header
    · refine .inr ⟨(MsonParser.heading_iff hk).mp hu, ?_⟩
      rw [MsonParser.otherHeading_iff hk, h]; simp
    · refine .inl ?_
      cases (MsonParser.part_iff (typed_item hu hk) (by simp)).mp h with
      | properties h => exact h

/-- What a sample or default makes of the parameter. -/
def sampled (d : Draft) (p : Parameter) : Parameter :=
  if d.value.isEmpty then p
  else if d.klass = .default then { p with defaultValue := d.value }
  else if d.klass = .sample then { p with exampleValue := d.value }
  else p

theorem sampled_iff {d : Draft} {p q : Parameter} : Sampled d p q ↔ q = sampled d p := by
  unfold sampled
  constructor
  · intro h
    cases h with
    | default h1 h2 => rw [if_neg (by simpa using h1), if_pos h2]
    | sample h1 h2 => rw [if_neg (by simpa using h1), if_neg (by rw [h2]; simp), if_pos h2]
    | nothing h =>
      split
      · rfl
      · rename_i hv
        rcases h with h | ⟨h1, h2⟩
        · rw [h] at hv; simp at hv
        · rw [if_neg h1, if_neg h2]
  · rintro rfl
    split
    · rename_i hv; exact .nothing (.inl (by simpa using hv))
    · rename_i hv
      split
      · rename_i h; exact .default (by simpa using hv) h
      · rename_i h
        split
        · rename_i h'; exact .sample (by simpa using hv) h'
        · rename_i h'; exact .nothing (.inr ⟨h, h'⟩)

/-- The value that an element is. -/
def literalOf : DataStructure.Element → Option Bytes
  | .value m => match m.definition.values with
    | [v] => some v.literal
    | _ => none
  | _ => none

theorem literal_iff {e : DataStructure.Element} {v : Bytes} : Literal e v ↔ literalOf e = some v := by
  constructor
  · rintro ⟨m, x, rfl, h, rfl⟩
    simp only [literalOf, h]
  · intro h
    unfold literalOf at h
    split at h
    · rename_i m
      split at h
      · rename_i x hx; cases h; exact ⟨m, x, rfl, hx, rfl⟩
      · cases h
    · cases h

theorem sectionValues_eq (es : List DataStructure.Element) : sectionValues es = es.filterMap literalOf := by
  unfold sectionValues
  congr 1

theorem literals_iff : ∀ {es : List DataStructure.Element} {vs : List Bytes}, Literals es vs ↔ vs = sectionValues es
  | [], vs => by
    constructor
    · intro h; cases h; rfl
    · rintro rfl; exact .nil
  | e :: es, vs => by
    rw [sectionValues_eq]
    constructor
    · intro h
      cases h with
      | value h1 h2 =>
        rw [List.filterMap_cons_some (literal_iff.mp h1), literals_iff.mp h2, sectionValues_eq]
      | other h1 h2 =>
        have : literalOf e = none := by
          cases hx : literalOf e with
          | none => rfl
          | some v => exact absurd (literal_iff.mpr hx) (h1 v)
        rw [List.filterMap_cons_none this, literals_iff.mp h2, sectionValues_eq]
    · rintro rfl
      cases hx : literalOf e with
      | none =>
        rw [List.filterMap_cons_none hx]
        exact .other (fun v h => by rw [literal_iff.mp h] at hx; cases hx) (literals_iff.mpr (sectionValues_eq es).symm)
      | some v =>
        rw [List.filterMap_cons_some hx]
        exact .value (literal_iff.mpr hx) (literals_iff.mpr (sectionValues_eq es).symm)

/-- A section of the parameter. -/
def sectionStep (w : World) (t : SectionType) (b : Mson.Base) (f : Draft → Parameter → Parameter) (n : Node) (o : Out Parameter) :
    Except Stop (Bool × Out Parameter) :=
  match (meaning w).typeSection t b n o.types with
  | .error e => .error e
  | .ok x => .ok (true, ⟨f x.node o.node, x.types, o.warnings ++ x.warnings.map .mson⟩)

/-- What the values make of the parameter. -/
def listed (d : Draft) (p : Parameter) : Parameter := { p with values := sectionValues d.elements }

/-- One block after the description. -/
def newStep (w : World) (n : Node) (o : Out Parameter) : Except Stop (Bool × Out Parameter) :=
  if recognise.typeSectionType n = .undefined then .ok (true, o.warn [ignoredAs n])
  else if recognise.typeSectionType n = .msonSampleDefault then sectionStep w .msonSampleDefault .implicitPrimitive sampled n o
  else if recognise.typeSectionType n = .msonValueMembers then sectionStep w .msonValueMembers .implicitValue listed n o
  else .ok (false, o)

theorem not_item {w : World} {t : SectionType} {b : Mson.Base} {n : Node} {types : Context} (h : n.kind ≠ .listItem) :
    (meaning w).typeSection t b n types = .error .thrown :=
  (MsonParser.fails_iff (MsonParser.part_at w t b)).mp ((C82_only_items w n types h).2.2.2.2.2 t b)

theorem newNested_step {ns : List Node} {i : Nat} {n : Node} {ctx : List SectionType} {last : SectionType} {w : World} (d : Out Parameter)
    (hi : ns[i]? = some n) : nestedStep (newOwn w) true noChild ns n i last ⟨(newOwn w).nestedType n :: ctx, d⟩ =
      moved i ((newOwn w).nestedType n :: ctx) (newStep w n d) := by
  by_cases hu : recognise.typeSectionType n = .undefined
  · rw [step_unexpected (fun _ _ _ => rfl) hi hu, newStep, if_pos hu]
  refine MsonParser.nestedStep_done hu ?_
  rw [newStep, if_neg hu]
  have ht : (newOwn w).nestedType n = recognise.typeSectionType n := rfl
  rw [ht]
  show newNested w ns i ⟨recognise.typeSectionType n :: ctx, d⟩ = _
  unfold newNested
  simp only [PD.top]
  rcases MsonParser.typeSection_values n with h | h | h | h
  · exact absurd h hu
  · rw [h]
    simp only [if_true]
    have := MsonParser.part_at w .msonSampleDefault .implicitPrimitive (types := d.types) ns i ctx [] hi
    simp only [List.cons_append, List.nil_append] at this
    rw [this, sectionStep]
    cases (meaning w).typeSection .msonSampleDefault .implicitPrimitive n d.types <;> rfl
  · rw [h]
    simp only [if_true, reduceCtorEq, if_false]
    have := MsonParser.part_at w .msonValueMembers .implicitValue (types := d.types) ns i ctx [] hi
    simp only [List.cons_append, List.nil_append] at this
    rw [this, sectionStep]
    cases (meaning w).typeSection .msonValueMembers .implicitValue n d.types <;> rfl
  · rw [h]
    simp only [reduceCtorEq, if_false]
    rfl

theorem newBlocks_iff {w : World} : ∀ {ns : List Node} {p : Parameter} {types : Context} {ws : List Warning} {o : Out Parameter},
    (∃ r, walk (newStep w) ns ⟨p, types, ws⟩ = .ok (r, o)) ↔ ∃ q types' us, NewBlocks w p types ns q types' us ∧ o = ⟨q, types', ws ++ us⟩
  | [], p, types, ws, o => by
    simp only [walk, Except.ok.injEq, Prod.mk.injEq]
    constructor
    · rintro ⟨_, rfl, rfl⟩; exact ⟨p, types, [], .nil, by simp⟩
    · rintro ⟨q, types', us, h, rfl⟩; cases h; exact ⟨_, rfl, by simp⟩
  | n :: ns, p, types, ws, o => by
    have e : ∀ x : Out Parameter, newStep w n ⟨p, types, ws⟩ = .ok (true, x) → ((∃ r, walk (newStep w) (n :: ns) ⟨p, types, ws⟩ = .ok (r, o)) ↔
        ∃ r, walk (newStep w) ns x = .ok (r, o)) := by
      intro x hx
      rw [walk, hx]
    have ee : ∀ er, newStep w n ⟨p, types, ws⟩ = .error er → ¬ ∃ r, walk (newStep w) (n :: ns) ⟨p, types, ws⟩ = .ok (r, o) := by
      rintro er hx ⟨r, h⟩
      rw [walk, hx] at h
      cases h
    rcases MsonParser.typeSection_values n with h | h | h | h
    · have hn : ¬ Typed n := fun ht => typed_iff.mp ht h
      rw [e ⟨p, types, ws ++ [ignoredAs n]⟩ (by rw [newStep, if_pos h]; rfl), newBlocks_iff]
      constructor
      · rintro ⟨q, types', us, hb, rfl⟩
        exact ⟨q, types', _, .ignored hn (ignored_iff.mpr rfl) hb, by simp⟩
      · rintro ⟨q, types', us, hb, rfl⟩
        cases hb with
        | sample h1 _ _ _ => rw [sample_type h1] at h; cases h
        | items h1 _ _ _ => rw [items_type h1] at h; cases h
        | ends h1 => rw [properties_iff.mp h1] at h; cases h
        | ignored _ h1 h2 =>
          rw [ignored_iff] at h1; subst h1
          exact ⟨q, types', _, h2, by simp⟩
    · have hs : newStep w n ⟨p, types, ws⟩ = sectionStep w .msonSampleDefault .implicitPrimitive sampled n ⟨p, types, ws⟩ := by
        rw [newStep, if_neg (by rw [h]; simp), if_pos h]
      cases hr : (meaning w).typeSection .msonSampleDefault .implicitPrimitive n types with
      | error er =>
        have := ee er (by rw [hs, sectionStep]; simp only [hr])
        simp only [this, false_iff, not_exists, not_and]
        intro q types' us hb
        cases hb with
        | sample _ h1 _ _ => rw [readPart_iff] at h1; rw [h1] at hr; cases hr
        | items h1 _ _ _ => rw [items_type h1] at h; cases h
        | ends h1 => rw [properties_iff.mp h1] at h; cases h
        | ignored h1 _ _ => exact absurd (typed_iff.mpr (by rw [h]; simp)) h1
      | ok x =>
        have hk : n.kind = .listItem := Classical.byContradiction fun hk => by rw [not_item hk] at hr; cases hr
        rw [e _ (by rw [hs, sectionStep]; simp only [hr]; rfl), newBlocks_iff]
        constructor
        · rintro ⟨q, types', us, hb, rfl⟩
          exact ⟨q, types', _, .sample (sample_of h hk) (readPart_iff.mpr hr) (sampled_iff.mpr rfl) hb, by simp⟩
        · rintro ⟨q, types', us, hb, rfl⟩
          cases hb with
          | sample _ h1 h2 h3 =>
            rw [readPart_iff, hr] at h1; cases h1
            rw [sampled_iff] at h2; subst h2
            exact ⟨q, types', _, h3, by simp⟩
          | items h1 _ _ _ => rw [items_type h1] at h; cases h
          | ends h1 => rw [properties_iff.mp h1] at h; cases h
          | ignored h1 _ _ => exact absurd (typed_iff.mpr (by rw [h]; simp)) h1
    · have hs : newStep w n ⟨p, types, ws⟩ = sectionStep w .msonValueMembers .implicitValue listed n ⟨p, types, ws⟩ := by
        rw [newStep, if_neg (by rw [h]; simp), if_neg (by rw [h]; simp), if_pos h]
      cases hr : (meaning w).typeSection .msonValueMembers .implicitValue n types with
      | error er =>
        have := ee er (by rw [hs, sectionStep]; simp only [hr])
        simp only [this, false_iff, not_exists, not_and]
        intro q types' us hb
        cases hb with
        | sample h1 _ _ _ => rw [sample_type h1] at h; cases h
        | items _ h1 _ _ => rw [readPart_iff] at h1; rw [h1] at hr; cases hr
        | ends h1 => rw [properties_iff.mp h1] at h; cases h
        | ignored h1 _ _ => exact absurd (typed_iff.mpr (by rw [h]; simp)) h1
      | ok x =>
        have hk : n.kind = .listItem := Classical.byContradiction fun hk => by rw [not_item hk] at hr; cases hr
        rw [e _ (by rw [hs, sectionStep]; simp only [hr]; rfl), newBlocks_iff]
        constructor
        · rintro ⟨q, types', us, hb, rfl⟩
          exact ⟨q, types', _, .items (items_of h hk) (readPart_iff.mpr hr) (literals_iff.mpr rfl) hb, by simp⟩
        · rintro ⟨q, types', us, hb, rfl⟩
          cases hb with
          | sample h1 _ _ _ => rw [sample_type h1] at h; cases h
          | items _ h1 h2 h3 =>
            rw [readPart_iff, hr] at h1; cases h1
            rw [literals_iff] at h2; subst h2
            exact ⟨q, types', _, h3, by simp⟩
          | ends h1 => rw [properties_iff.mp h1] at h; cases h
          | ignored h1 _ _ => exact absurd (typed_iff.mpr (by rw [h]; simp)) h1
    · have hs : newStep w n ⟨p, types, ws⟩ = .ok (false, ⟨p, types, ws⟩) := by
        rw [newStep, if_neg (by rw [h]; simp), if_neg (by rw [h]; simp), if_neg (by rw [h]; simp)]
      rw [walk, hs]
      simp only [Except.ok.injEq, Prod.mk.injEq]
      constructor
      · rintro ⟨_, rfl, rfl⟩
        exact ⟨p, types, [], .ends (properties_iff.mpr h), by simp⟩
      · rintro ⟨q, types', us, hb, rfl⟩
        cases hb with
        | sample h1 _ _ _ => rw [sample_type h1] at h; cases h
        | items h1 _ _ _ => rw [items_type h1] at h; cases h
        | ends h1 => exact ⟨_, rfl, by simp⟩
        | ignored h1 _ _ => exact absurd (typed_iff.mpr (by rw [h]; simp)) h1

/-- The list item as a whole. -/
def newItem (w : World) (n : Node) (d : Out Parameter) : Except Stop (Out Parameter) :=
  itemResult (pass newSignature) (fun n => recognise.isDescription recognise.typeSectionType [] n) (describeStep w) (newStep w) checkParameter n d

theorem parseNew_item {w : World} {siblings : List Node} {i : Nat} {n : Node} {ctx : List SectionType} (d : Out Parameter)
    (hi : siblings[i]? = some n) : parseNew w siblings i ⟨ctx, d⟩ = outcome i ctx (newItem w n d) := by
  refine MsonParser.parse_list d hi ?_ ?_ ?_ ?_ ?_ ?_ ?_ ?_
  · intro ns j d hn; exact oneSignature_none (f := newSignature) hn
  · intro ns j m d hm
    refine (oneSignature_some (f := newSignature) hm).trans ?_
    cases pass newSignature m d <;> rfl
  · intro n d; rfl
  · intro ns j m d hm _; exact description_step d hm
  · intro n t; rfl
  · intro ns j d; rfl
  · intro ns j m last d hm; exact newNested_step d hm
  · intro ns j d; rfl

theorem newSignature_iff {n : Node} {types : Context} {ws : List Warning} {o : Out Parameter} :
    newSignature n ⟨{ name := [] }, types, ws⟩ = .ok o ↔ ∃ line rest s sw d p₀ tw, Signed newTraits n line rest s sw ∧ Under s.content rest (str "\n") d ∧
      Attributed false s.attributes { name := stripBackticks s.identifier, exampleValue := s.value } p₀ tw ∧
      o = ⟨{ p₀ with description := d }, types, ws ++ sw.map .mson ++ tw⟩ := by
  unfold newSignature
  cases hr : readSignature newTraits n with
  | error e =>
    simp only [reduceCtorEq, false_iff, not_exists, not_and]
    intro line rest s sw _ _ _ hs
    rw [(signed_iff (by decide)).mpr ⟨line, rest, s, hs, rfl⟩] at hr
    cases hr
  | ok q =>
    obtain ⟨s', v⟩ := q
    simp only [Except.ok.injEq]
    constructor
    · rintro rfl
      obtain ⟨line, rest, s, hs, rfl⟩ := (signed_iff (by decide)).mp hr
      refine ⟨line, rest, s, _, _, _, _, hs, under_iff.mpr rfl, attributed_iff.mpr ⟨rfl, rfl⟩, ?_⟩
      simp only [withTraits, Out.warn, attributed, traitWarnings]
    · rintro ⟨line, rest, s, sw, d, p₀, tw, hs, hu, ha, rfl⟩
      rw [(signed_iff (by decide)).mpr ⟨line, rest, s, hs, rfl⟩] at hr
      cases hr
      rw [under_iff] at hu; subst hu
      obtain ⟨rfl, rfl⟩ := attributed_iff.mp ha
      simp only [withTraits, Out.warn, attributed, traitWarnings]

/-- A parameter of the new syntax. -/
theorem newItem_iff {w : World} {n : Node} {types : Context} {ws : List Warning} {o : Out Parameter} :
    newItem w n ⟨{ name := [] }, types, ws⟩ = .ok o ↔ ∃ p types' us, NewRead w n types p types' us ∧ o = ⟨p, types', ws ++ us⟩ := by
  have hun : ∀ {l pre post}, Spec.Payload.Until Typed l pre post ↔ pre = l.takeWhile _ ∧ post = l.dropWhile _ :=
    Payload.until_iff (p := fun n => recognise.isDescription recognise.typeSectionType [] n) fun n => by
      rw [isDescription_iff, typed_iff]; simp
  unfold newItem
  rw [item_iff pass_true describeStep_true]
  constructor
  · rintro ⟨sig, blocks, d₁, d₂, r, d₃, hp, h1, h2, h3, rfl⟩
    obtain ⟨line, rest, s, sw, d, p₀, tw, hs, hu, ha, rfl⟩ := newSignature_iff.mp (pass_iff.mp h1)
    obtain ⟨d', hd, rfl⟩ := described_iff.mp h2
    obtain ⟨q, types', us, hb, rfl⟩ := newBlocks_iff.mp ⟨r, h3⟩
    obtain ⟨cw, uw, hc, hw, he⟩ := checks_iff.mpr (rfl : checks q = checks q)
    refine ⟨q, types', _, ⟨sig, blocks, line, rest, s, sw, d, _, _, d', p₀, tw, us, cw, uw, hp, hs, hu, hun.mpr ⟨rfl, rfl⟩, hd, ha, hb, hc, hw, rfl⟩, ?_⟩
    rw [checkParameter_eq]
    simp [Out.warn, he, List.append_assoc]
  · rintro ⟨q, types', _, ⟨sig, blocks, line, rest, s, sw, d, ds, bs, d', p₀, tw, us, cw, uw, hp, hs, hu, hun', hd, ha, hb, hc, hw, rfl⟩, rfl⟩
    obtain ⟨rfl, rfl⟩ := hun.mp hun'
    have he := checks_iff.mp ⟨cw, uw, hc, hw, rfl⟩
    obtain ⟨r, hr⟩ := newBlocks_iff.mpr ⟨q, types', us, hb, rfl⟩
    refine ⟨sig, blocks, _, _, r, _, hp, pass_iff.mpr (newSignature_iff.mpr ⟨line, rest, s, sw, d, p₀, tw, hs, hu, ha, rfl⟩),
      described_iff.mpr ⟨d', hd, rfl⟩, hr, ?_⟩
    rw [checkParameter_eq]
    simp [Out.warn, ← he, List.append_assoc]

end Verif.ParametersParser
