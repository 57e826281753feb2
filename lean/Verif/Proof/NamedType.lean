import Verif.Proof.SectionMany
import Verif.Proof.MsonAttributes
import Verif.Proof.MsonSections
import Verif.Proof.MsonContent
import Verif.Spec.NamedType

/-! # Named types: the parser and the specification -/

namespace Verif.MsonParser
open Verif Verif.Text Verif.Section Verif.Recognition Verif.Spec Verif.Spec.MsonParser
open Verif.Mson (Base TypeDef Context)
open Verif.DataStructure (NamedType)

/-! ## Headings -/

theorem headingOf_iff {n : Node} (hh : n.kind = .header) {t : SectionType} (ht : t ≠ .undefined) :
    recognise.typeSectionType n = t ↔ HeadingOf n t := by
  have hsplit : HeadingOf n t ↔ (t = .msonSampleDefault ∧ (Spec.Recognition.DefaultLine (Regex.cstr (trim (getFirstLine n.text).1)) ∨
        Spec.Recognition.SampleLine (Regex.cstr (trim (getFirstLine n.text).1)))) ∨
      (t = .msonValueMembers ∧ Spec.Recognition.ItemsLine (Regex.cstr (trim (getFirstLine n.text).1))) ∨
      (t = .msonPropertyMembers ∧ Spec.Recognition.PropertiesLine (Regex.cstr (trim (getFirstLine n.text).1))) := by
    constructor
    · intro h
      cases h with
      | sample _ h1 h2 h3 => rw [firstLine_iff.mp h1] at *; rw [seen_iff.mp h2] at h3; exact .inl ⟨rfl, h3⟩
      | items _ h1 h2 h3 => rw [firstLine_iff.mp h1] at *; rw [seen_iff.mp h2] at h3; exact .inr (.inl ⟨rfl, h3⟩)
      | properties _ h1 h2 h3 => rw [firstLine_iff.mp h1] at *; rw [seen_iff.mp h2] at h3; exact .inr (.inr ⟨rfl, h3⟩)
    · rintro (⟨rfl, h⟩ | ⟨rfl, h⟩ | ⟨rfl, h⟩)
      · exact .sample hh (firstLine_iff.mpr rfl) (seen_iff.mpr rfl) h
      · exact .items hh (firstLine_iff.mpr rfl) (seen_iff.mpr rfl) h
      · exact .properties hh (firstLine_iff.mpr rfl) (seen_iff.mpr rfl) h
  by_cases hx : n.text = []
  · have hu : recognise.typeSectionType n = .undefined := by
      unfold Recognise.typeSectionType
      rw [if_neg (by
        rintro (h' | h')
        · exact h'.2 hx
        · rw [hh] at h'; cases h'.1)]
    rw [hu]
    constructor
    · intro h; exact absurd h.symm ht
    · intro h
      refine absurd hu ((heading_iff hh).mpr ?_)
      cases h with
      | sample _ h1 h2 h3 => exact ⟨hh, _, _, h1, h2, h3.elim .inl fun h => .inr (.inl h)⟩
      | items _ h1 h2 h3 => exact ⟨hh, _, _, h1, h2, .inr (.inr (.inl h3))⟩
      | properties _ h1 h2 h3 => exact ⟨hh, _, _, h1, h2, .inr (.inr (.inr h3))⟩
  · have hv : recognise.typeSectionType n = typeSectionOf n := by
      unfold Recognise.typeSectionType
      rw [if_pos (.inl ⟨hh, hx⟩)]
      rfl
    rw [hv, hsplit]
    have e := fun i j hi hj => Props.C77_exclusive i j (Regex.cstr (trim (getFirstLine n.text).1)) hi hj
    have e1 := e .sampleDefault .valueMembers
    have e2 := e .sampleDefault .propertyMembers
    have e3 := e .valueMembers .propertyMembers
    simp only [Recognition.Item.Form, reduceCtorEq, imp_false] at e1 e2 e3
    unfold typeSectionOf
    simp only [hh, ne_eq, hx, not_false_eq_true, and_self, if_true]
    rw [← m_default, ← m_sample, ← m_valueMembers, ← m_propertyMembers] at *
    have hc : ∀ a : SectionType, a = t ↔ t = a := fun a => ⟨Eq.symm, Eq.symm⟩
    rw [hc]
    split
    · rename_i h1; simp only [Bool.or_eq_true] at h1
      simp [h1, e1 h1, e2 h1]
    · rename_i h1; simp only [Bool.or_eq_true] at h1
      split
      · rename_i h2; simp [h1, h2, e3 h2]
      · rename_i h2
        split
        · rename_i h3; simp [h1, h2, h3]
        · rename_i h3; simp [h1, h2, h3, ht]

/-! ## A section under a heading -/

/-- What is made of a section under a heading. -/
def headed (w : World) (R : Readers) (t : SectionType) (b : Base) (n : Node) (ns : List Node) (types : Context) :
    Except Stop (List Node × Out Draft) :=
  headResult typeSectionSign never noDescription (single (typeSectionStep w R t)) id n ns ⟨{ base := b }, types, []⟩

theorem head_simple {α : Type} {sg f : Node → Out α → Except Stop (Bool × Out α)} {n : Node} {ns : List Node} {o : Out α} :
    headResult sg never noDescription (single f) id n ns o =
      match sg n o with
      | .error e => .error e
      | .ok (false, d) => .ok (n :: ns, d)
      | .ok (true, d) => walk f ns d := by
  unfold headResult
  cases sg n o with
  | error e => rfl
  | ok q =>
    obtain ⟨b, d⟩ := q
    cases b with
    | false => rfl
    | true =>
      simp only [(walk_never ns).1, (walk_never ns).2, walk, many_single]
      cases walk f ns d with
      | error e => rfl
      | ok q => rfl

theorem head_frame {α : Type} {sg f : Node → Out α → Except Stop (Bool × Out α)} (hs : Frame sg) (hf : Frame f) (n : Node) (ns : List Node)
    (a : α) (types : Context) (ws : List Warning) :
    headResult sg never noDescription (single f) id n ns ⟨a, types, ws⟩ =
      afterW ws (headResult sg never noDescription (single f) id n ns ⟨a, types, []⟩) := by
  rw [head_simple, head_simple, hs n a types ws]
  cases sg n ⟨a, types, []⟩ with
  | error e => rfl
  | ok q =>
    obtain ⟨b, d⟩ := q
    cases b with
    | false => rfl
    | true =>
      obtain ⟨a', types', ws'⟩ := d
      simp only [afterS, after]
      rw [walk_frame hf, walk_frame hf (ws := ws'), afterW_afterW]

theorem nestedStep_reply {σ : Type} {o : Own σ} {skips : Bool} {ns : List Node} {n : Node} {i : Nat} {last : SectionType} {ctx : List SectionType}
    {d : σ} {f : Node → σ → Except Stop (Bool × σ)} (hi : ns[i]? = some n) (ht : o.nestedType n ≠ .undefined)
    (h : o.nested ns i ⟨ctx, d⟩ = replied i ctx (f n d)) :
    nestedStep o skips noChild ns n i last ⟨ctx, d⟩ = movedTo ns.length i ctx (single f n (ns.drop (i + 1)) d) := by
  have hlt := (List.getElem?_eq_some_iff.mp hi).1
  unfold nestedStep single
  rw [if_pos ht, h]
  cases f n d with
  | error e => rfl
  | ok q =>
    obtain ⟨b, d'⟩ := q
    cases b with
    | false => rfl
    | true =>
      simp only [replied, if_true, movedTo, List.length_drop]
      congr 2
      omega

theorem typeSection_header {w : World} {P : Parsers} {R : Readers} (h : Agrees P R) (t : SectionType) (ctx : List SectionType) (b : Base)
    {ns : List Node} {i : Nat} {n : Node} (hi : ns[i]? = some n) (hk : n.kind = .header) (types : Context) (ws : List Warning) :
    parseSection (typeSectionOwn w P) .header noChild ns i ⟨t :: ctx, { base := b }, types, ws⟩ =
      at_ ns.length (t :: ctx) (afterW ws (headed w R t b n (ns.drop (i + 1)) types)) := by
  unfold headed
  rw [← head_frame typeSectionSign_frame (typeSectionStep_frame w R t)]
  refine parse_header _ hi hk (single_suffixes _) ?_ ?_ ?_ ?_ ?_ ?_ ?_
  · intro m d hm
    simp only [typeSectionOwn, typeSectionSignature, hm, typeSectionSign]
    cases readSignature typeSectionTraits m <;> rfl
  · intro n d; rfl
  · intro j m d _ hd; simp [never] at hd
  · intro n t; rfl
  · intro j d; rfl
  · intro j m last d hm
    exact nestedStep_reply hm (typeSectionNested_ne m) (typeSectionNested_step h t ctx hm d)
  · intro j d; rfl

/-! ## The blocks of a named type -/

/-- A block of a named type, with those after it. -/
def typeStep (w : World) (R S : Readers) (n : Node) (ns : List Node) (o : Out Body) : Except Stop (Option (List Node) × Out Body) :=
  if recognise.typeSectionType n = .undefined then single (memberStep w R) n ns o
  else if n.kind = .header then
    let base := resolveBase n (recognise.typeSectionType n) o.node.base
    match headed w S (recognise.typeSectionType n) base n ns o.types with
    | .error e => .error e
    | .ok (r, x) =>
      .ok (if r.length ≤ ns.length then some r else none,
        addSection ⟨{ o.node with base := base }, x.types, o.warnings ++ x.warnings⟩ x.node)
  else .error .thrown

theorem headed_suffix {w : World} {R : Readers} {t : SectionType} {b : Base} {n : Node} {ns r : List Node} {types : Context} {x : Out Draft}
    (h : headed w R t b n ns types = .ok (r, x)) : r = n :: ns ∨ r <:+ ns := by
  unfold headed at h
  rw [head_simple] at h
  split at h
  · cases h
  · cases h; exact .inl rfl
  · rw [← many_single] at h
    exact .inr (many_suffix (single_suffixes _) h)

theorem typeStep_suffixes (w : World) (R S : Readers) : Suffixes (typeStep w R S) := by
  intro n ns d r d' h
  unfold typeStep at h
  split at h
  · exact single_suffixes _ _ _ _ _ _ h
  · split at h
    · simp only at h
      split at h
      · cases h
      · rename_i r' x hx
        split at h
        · rename_i hl
          cases h
          rcases headed_suffix hx with rfl | hs
          · rw [List.length_cons] at hl; omega
          · exact hs
        · cases h
    · cases h

theorem member_typed {n : Node} (h : recognise.typeSectionType n ≠ .undefined) : memberNested n = recognise.typeSectionType n := by
  unfold memberNested Recognise.first
  simp [h]

theorem member_untyped {n : Node} (h : recognise.typeSectionType n = .undefined) :
    memberNested n = .mson ∨ memberNested n = .msonMixin ∨ memberNested n = .msonOneOf := by
  rcases mixinType_cases n with h1 | h1 <;> rcases oneOfType_cases n with h2 | h2 <;> simp [memberNested, Recognise.first, h, h1, h2]

/-- A lens on a step with the blocks after it. -/
def Lens.stepMany {α : Type} (l : Lens α) (F : Node → List Node → Out Body → Except Stop (Option (List Node) × Out Body)) (n : Node) (ns : List Node)
    (o : Out α) : Except Stop (Option (List Node) × Out α) :=
  match F n ns { o with node := l.get o.node } with
  | .error e => .error e
  | .ok (b, o') => .ok (b, { o' with node := l.set o'.node o.node })

theorem stepMany_suffixes {α : Type} (l : Lens α) {F : Node → List Node → Out Body → Except Stop (Option (List Node) × Out Body)}
    (h : Suffixes F) : Suffixes (l.stepMany F) := by
  intro n ns d r d' hx
  unfold Lens.stepMany at hx
  split at hx
  · cases hx
  · rename_i hy
    cases hx
    exact h _ _ _ _ _ hy

theorem nestedMembers_many {w : World} {d : Nat} {ctx : List SectionType} {ns : List Node} {i : Nat} {n : Node} (hi : ns[i]? = some n)
    (o : Out Body) : nestedMembers w (parsers w (d + 1)) .header ns i ⟨memberNested n :: ctx, o⟩ =
      match typeStep w (readers w (d + 1)) (readers w d) n (ns.drop (i + 1)) o with
      | .error e => .error e
      | .ok (none, o') => .ok (.done i () ⟨memberNested n :: ctx, o'⟩)
      | .ok (some r, o') => .ok (.done (ns.length - r.length) () ⟨memberNested n :: ctx, o'⟩) := by
  have hlt := (List.getElem?_eq_some_iff.mp hi).1
  by_cases hu : recognise.typeSectionType n = .undefined
  · have e : nestedMembers w (parsers w (d + 1)) .header ns i ⟨memberNested n :: ctx, o⟩ =
        nestedMembers w (parsers w (d + 1)) .list ns i ⟨memberNested n :: ctx, o⟩ := by
      unfold nestedMembers
      simp only [PD.top]
      rcases member_untyped hu with h | h | h <;> rw [h]
    rw [e, nestedMembers_step (agrees w (d + 1)) hi, typeStep, if_pos hu, single]
    cases memberStep w (readers w (d + 1)) n o with
    | error e => rfl
    | ok q =>
      obtain ⟨b, o'⟩ := q
      cases b with
      | false => rfl
      | true =>
        simp only [replied, if_true, List.length_drop]
        congr 2
        omega
  · rw [typeStep, if_neg hu, member_typed hu]
    have hx : ∀ t, recognise.typeSectionType n = t → nestedMembers w (parsers w (d + 1)) .header ns i ⟨t :: ctx, o⟩ =
        element ((parsers w (d + 1)).typeSection .header) { base := resolveBase n t o.node.base } addSection ns i
          ⟨t :: ctx, ⟨{ o.node with base := resolveBase n t o.node.base }, o.types, o.warnings⟩⟩ := by
      intro t ht
      unfold nestedMembers
      simp only [PD.top, hi, PD.set]
      rcases typeSection_values n with h | h | h | h
      · exact absurd h hu
      all_goals (rw [ht] at h; subst h; rfl)
    rw [hx _ rfl]
    unfold element call
    simp only [parsers]
    by_cases hk : n.kind = .header
    · rw [typeSection_header (agrees w d) _ ctx _ hi hk, if_pos hk]
      cases hh : headed w (readers w d) (recognise.typeSectionType n) (resolveBase n (recognise.typeSectionType n) o.node.base) n (ns.drop (i + 1)) o.types with
      | error e => rfl
      | ok q =>
        obtain ⟨r, x⟩ := q
        simp only [afterW, after, at_, PD.set]
        rcases headed_suffix hh with rfl | hs
        · rw [if_neg (by simp)]
          simp only [List.length_cons, List.length_drop]
          congr 2
          omega
        · rw [if_pos hs.length_le]
    · rw [if_neg hk]
      simp only [parseSection, Adapter.start, hi, if_neg hk]

theorem namedSignature_frame (n : Node) (a : NamedType) (types : Context) (ws : List Warning) :
    namedSignature n ⟨[], a, types, ws⟩ = afterR ws (namedSignature n ⟨[], a, types, []⟩) := by
  unfold namedSignature
  cases readSignature typeTraits n with
  | error e => rfl
  | ok q => simp [afterR, after]

/-- What is made of a header and the blocks after it. -/
def namedResult (w : World) (R S : Readers) (n : Node) (ns : List Node) (o : Out NamedType) : Except Stop (List Node × Out NamedType) :=
  headResult (signed (unplaced namedSignature)) memberDescription (namedLens.step (describe w)) (namedLens.stepMany (typeStep w R S)) namedFinalize n ns o

theorem named_parse {w : World} {d : Nat} {ns : List Node} {i : Nat} {n : Node} (ctx : List SectionType) (hi : ns[i]? = some n) (hk : n.kind = .header)
    (o : Out NamedType) : parseSection (namedOwn w (parsers w (d + 1))) .header noChild ns i ⟨ctx, o⟩ =
      at_ ns.length ctx (namedResult w (readers w (d + 1)) (readers w d) n (ns.drop (i + 1)) o) := by
  unfold namedResult
  refine parse_header _ hi hk (stepMany_suffixes _ (typeStep_suffixes w _ _)) ?_ ?_ ?_ ?_ ?_ ?_ ?_
  · intro m d hm
    simp only [namedOwn, Lens.own, oneSignature, hm, signed, unplaced]
    have e : namedSignature m ⟨ctx, d⟩ = namedSignature m ⟨[], d⟩ := rfl
    rw [e]
    cases namedSignature m ⟨[], d⟩ <;> rfl
  · intro n d; rfl
  · intro j m d hm _
    simp only [namedOwn, Lens.own, Lens.description, hm, Lens.step, describe, PD.set]
    have hl : ∀ a, namedLens.set (namedLens.get a) a = a := fun _ => rfl
    split <;> simp [*, moved, hl]
  · intro n t; rfl
  · intro j d; rfl
  · intro j m last o hm
    show nestedStep (namedOwn w (parsers w (d + 1))) false noChild ns m j last ⟨memberNested m :: ctx, o⟩ =
      movedTo ns.length j (memberNested m :: ctx) _
    unfold nestedStep
    rw [if_pos (show (namedOwn w (parsers w (d + 1))).nestedType m ≠ .undefined from memberNested_ne m)]
    rw [show (namedOwn w (parsers w (d + 1))).nested = namedLens.nested w (parsers w (d + 1)) .header from rfl]
    unfold Lens.nested
    simp only
    rw [nestedMembers_many hm, Lens.stepMany]
    cases typeStep w (readers w (d + 1)) (readers w d) m (ns.drop (j + 1)) ⟨namedLens.get o.node, o.types, o.warnings⟩ with
    | error e => rfl
    | ok q =>
      obtain ⟨b, o'⟩ := q
      cases b <;> rfl
  · intro j d; rfl

/-! ## The depth does not matter -/

theorem many_congr {σ : Type} {F G : Node → List Node → σ → Except Stop (Option (List Node) × σ)} (hF : Suffixes F) : ∀ {fuel ns},
    (∀ n ms d, n :: ms <:+ ns → F n ms d = G n ms d) → ∀ d, many F fuel ns d = many G fuel ns d
  | _, [], _, d => by rw [many, many]
  | 0, n :: ns, _, d => by rw [many, many]
  | fuel + 1, n :: ns, h, d => by
    rw [many, many, ← h n ns d (List.suffix_refl _)]
    cases hf : F n ns d with
    | error e => rfl
    | ok q =>
      obtain ⟨b, d'⟩ := q
      cases b with
      | none => rfl
      | some r =>
        have hs := hF _ _ _ _ _ hf
        exact many_congr hF (fun m ms d hm => h m ms d (hm.trans (hs.trans (List.suffix_cons _ _)))) d'

theorem headed_congr {w : World} {R S : Readers} {t : SectionType} {b : Base} {n : Node} {ns : List Node} {types : Context}
    (h : ∀ m ∈ ns, Same R S m) : headed w R t b n ns types = headed w S t b n ns types := by
  unfold headed
  rw [head_simple, head_simple]
  cases typeSectionSign n ⟨{ base := b }, types, []⟩ with
  | error e => rfl
  | ok q =>
    obtain ⟨b, d⟩ := q
    cases b with
    | false => rfl
    | true => exact walk_congr (fun m hm d => typeSectionStep_same (h m hm) w t d) d

theorem typeStep_congr {w : World} {R S R' S' : Readers} {n : Node} {ns : List Node} (hn : Same R R' n) (h : ∀ m ∈ ns, Same S S' m) (o : Out Body) :
    typeStep w R S n ns o = typeStep w R' S' n ns o := by
  unfold typeStep
  simp only [headed_congr h, single, memberStep_same hn]

/-- What is made of a header and the blocks after it. -/
def namedMeaning (w : World) (n : Node) (ns : List Node) (types : Context) : Except Stop (List Node × Out NamedType) :=
  namedResult w (meaning w) (meaning w) n ns ⟨{}, types, []⟩

theorem namedResult_meaning (w : World) {d : Nat} {n : Node} {ns : List Node} (h : ∀ m ∈ ns, depth m ≤ d) (o : Out NamedType) :
    namedResult w (readers w (d + 1)) (readers w d) n ns o = namedResult w (meaning w) (meaning w) n ns o := by
  unfold namedResult headResult
  have e : ∀ d', many (namedLens.stepMany (typeStep w (readers w (d + 1)) (readers w d))) (ns.dropWhile memberDescription).length
      (ns.dropWhile memberDescription) d' = many (namedLens.stepMany (typeStep w (meaning w) (meaning w)))
        (ns.dropWhile memberDescription).length (ns.dropWhile memberDescription) d' := by
    intro d'
    refine many_congr (stepMany_suffixes _ (typeStep_suffixes w _ _)) ?_ d'
    intro m ms x hm
    have hsub : ∀ y ∈ m :: ms, depth y ≤ d := fun y hy => h y ((List.dropWhile_sublist _).mem (hm.mem hy))
    unfold Lens.stepMany
    rw [typeStep_congr (readers_meaning w (Nat.le_succ_of_le (hsub m (List.mem_cons_self ..))))
      fun y hy => readers_meaning w (hsub y (List.mem_cons_of_mem _ hy))]
  simp only [e]

/-! ## Warnings only come to the others -/

/-- The same with the warnings before. -/
def afterM {α : Type} (ws : List Warning) : Except Stop (Option (List Node) × Out α) → Except Stop (Option (List Node) × Out α)
  | .error e => .error e
  | .ok (b, o) => .ok (b, after ws o)

/-- The step appends to the warnings and does not look at them. -/
def FrameM {α : Type} (F : Node → List Node → Out α → Except Stop (Option (List Node) × Out α)) : Prop :=
  ∀ n ns a types ws, F n ns ⟨a, types, ws⟩ = afterM ws (F n ns ⟨a, types, []⟩)

theorem single_frame {α : Type} {f : Node → Out α → Except Stop (Bool × Out α)} (h : Frame f) : FrameM (single f) := by
  intro n ns a types ws
  unfold single
  rw [h n a types ws]
  cases f n ⟨a, types, []⟩ <;> rfl

theorem many_frame {α : Type} {F : Node → List Node → Out α → Except Stop (Option (List Node) × Out α)} (h : FrameM F) : ∀ fuel ns a types ws,
    many F fuel ns ⟨a, types, ws⟩ = afterW ws (many F fuel ns ⟨a, types, []⟩)
  | _, [], a, types, ws => by rw [many, many]; simp [afterW, after]
  | 0, n :: ns, a, types, ws => by rw [many, many]; rfl
  | fuel + 1, n :: ns, a, types, ws => by
    rw [many, many, h n ns a types ws]
    cases F n ns ⟨a, types, []⟩ with
    | error e => rfl
    | ok q =>
      obtain ⟨b, a', types', ws'⟩ := q
      cases b with
      | none => rfl
      | some r =>
        simp only [afterM, after]
        rw [many_frame h fuel r a' types' (ws ++ ws'), many_frame h fuel r a' types' ws', afterW_afterW]

theorem typeStep_frame (w : World) (R S : Readers) : FrameM (typeStep w R S) := by
  intro n ns a types ws
  unfold typeStep
  simp only
  by_cases hu : recognise.typeSectionType n = .undefined
  · rw [if_pos hu, if_pos hu]
    exact single_frame (memberStep_frame w R) n ns a types ws
  · rw [if_neg hu, if_neg hu]
    by_cases hk : n.kind = .header
    · rw [if_pos hk, if_pos hk]
      cases headed w S (recognise.typeSectionType n) (resolveBase n (recognise.typeSectionType n) a.base) n ns types with
      | error e => rfl
      | ok q =>
        obtain ⟨r, x⟩ := q
        by_cases hkl : x.node.klass = .undefined <;> simp [afterM, after, addSection, hkl]
    · rw [if_neg hk, if_neg hk]; rfl

theorem stepMany_frame {α : Type} (l : Lens α) {F : Node → List Node → Out Body → Except Stop (Option (List Node) × Out Body)} (h : FrameM F) :
    FrameM (l.stepMany F) := by
  intro n ns a types ws
  unfold Lens.stepMany
  simp only
  rw [h n ns (l.get a) types ws]
  cases F n ns ⟨l.get a, types, []⟩ <;> rfl

theorem namedFinalize_frame : FrameF namedFinalize := by
  intro a types ws; simp [namedFinalize, after]

theorem namedResult_frame (w : World) (n : Node) (ns : List Node) (a : NamedType) (types : Context) (ws : List Warning) :
    namedResult w (meaning w) (meaning w) n ns ⟨a, types, ws⟩ = afterW ws (namedResult w (meaning w) (meaning w) n ns ⟨a, types, []⟩) := by
  unfold namedResult headResult
  rw [signed_frame (f := unplaced namedSignature) (fun n a types ws => namedSignature_frame n a types ws) n a types ws]
  cases signed (unplaced namedSignature) n ⟨a, types, []⟩ with
  | error e => rfl
  | ok q =>
    obtain ⟨b, a', types', ws'⟩ := q
    cases b with
    | false => rfl
    | true =>
      simp only [afterS, after]
      rw [walk_frame (namedLens.step_frame (describe_frame w)), walk_frame (namedLens.step_frame (describe_frame w)) (ws := ws'), ← afterW_afterW]
      cases afterW ws' (walk (namedLens.step (describe w)) (ns.takeWhile memberDescription) ⟨a', types', []⟩) with
      | error e => rfl
      | ok q =>
        obtain ⟨r, a'', types'', ws''⟩ := q
        cases r with
        | cons => rfl
        | nil =>
          simp only [afterW, after]
          rw [many_frame (stepMany_frame namedLens (typeStep_frame w _ _)), many_frame (stepMany_frame namedLens (typeStep_frame w _ _)) (ws := ws''),
            ← afterW_afterW]
          cases afterW ws'' (many (namedLens.stepMany (typeStep w (meaning w) (meaning w))) (ns.dropWhile memberDescription).length
            (ns.dropWhile memberDescription) ⟨a'', types'', []⟩) with
          | error e => rfl
          | ok q => rfl

/-- The parser does what the meaning says. -/
theorem named_at (w : World) {n : Node} {types : Context} (ns : List Node) (i : Nat) (ctx : List SectionType) (ws : List Warning)
    (hi : ns[i]? = some n) (hk : n.kind = .header) : parseNamed w ns i ⟨ctx, {}, types, ws⟩ =
      at_ ns.length ctx (afterW ws (namedMeaning w n (ns.drop (i + 1)) types)) := by
  unfold parseNamed namedMeaning
  rw [named_parse ctx hi hk, namedResult_meaning w (fun m hm => depth_mem (List.mem_of_mem_drop hm)), namedResult_frame]

end Verif.MsonParser
