import Verif.Proof.MsonLoop

/-! # The parsers of MSON, block by block

`Readers` says what each parser makes of one list item, given what is known of the named types.  `agrees` shows that the parsers of
`Model/MsonParser.lean` do that wherever the item stands and whatever was reported before.
-/

namespace Verif.MsonParser
open Verif Verif.Text Verif.Section Verif.Recognition Verif.Signature
open Verif.Mson (Base TypeDef ValueDef PropertyName Context)
open Verif.DataStructure (Klass Element Member NamedType)
open Verif.Payload (outcome)

/-- What is made of an item. -/
abbrev Reader (β : Type) := Node → Context → Except Stop (Out β)

/-- What is made of the items that these parsers read. -/
structure Readers where
  typeSection : SectionType → Base → Reader Draft
  mixin : Reader TypeDef
  oneOf : Reader (List Element)
  value : Reader ValueNode
  property : Reader PropertyNode

/-- After other warnings. -/
def after {α : Type} (ws : List Warning) (o : Out α) : Out α := { o with warnings := ws ++ o.warnings }

/-- A result after other warnings. -/
def afterR {α : Type} (ws : List Warning) : Except Stop (Out α) → Except Stop (Out α)
  | .error e => .error e
  | .ok o => .ok (after ws o)

/-- A step after other warnings. -/
def afterS {α : Type} (ws : List Warning) : Except Stop (Bool × Out α) → Except Stop (Bool × Out α)
  | .error e => .error e
  | .ok (b, o) => .ok (b, after ws o)

/-- A list of blocks after other warnings. -/
def afterW {α : Type} (ws : List Warning) : Except Stop (List Node × Out α) → Except Stop (List Node × Out α)
  | .error e => .error e
  | .ok (r, o) => .ok (r, after ws o)

/-- The step appends to the warnings and does not look at them. -/
def Frame {α : Type} (f : Node → Out α → Except Stop (Bool × Out α)) : Prop :=
  ∀ n a types ws, f n ⟨a, types, ws⟩ = afterS ws (f n ⟨a, types, []⟩)

theorem after_after {α : Type} (v w : List Warning) (o : Out α) : after v (after w o) = after (v ++ w) o := by
  simp [after]

theorem afterW_afterW {α : Type} (v w : List Warning) (r : Except Stop (List Node × Out α)) :
    afterW v (afterW w r) = afterW (v ++ w) r := by
  cases r <;> simp [afterW, after_after]

theorem afterR_afterR {α : Type} (v w : List Warning) (r : Except Stop (Out α)) : afterR v (afterR w r) = afterR (v ++ w) r := by
  cases r <;> simp [afterR, after_after]

theorem walk_frame {α : Type} {f : Node → Out α → Except Stop (Bool × Out α)} (h : Frame f) :
    ∀ ns a types ws, walk f ns ⟨a, types, ws⟩ = afterW ws (walk f ns ⟨a, types, []⟩)
  | [], a, types, ws => by simp [walk, afterW, after]
  | n :: ns, a, types, ws => by
    rw [walk, walk, h n a types ws]
    cases f n ⟨a, types, []⟩ with
    | error e => rfl
    | ok q =>
      obtain ⟨b, a', types', ws'⟩ := q
      cases b with
      | true =>
        simp only [afterS, after]
        rw [walk_frame h ns a' types' (ws ++ ws'), walk_frame h ns a' types' ws', afterW_afterW]
      | false => simp [afterS, afterW, after]

/-- `fin` appends to the warnings and does not look at them. -/
def FrameF {α : Type} (fin : Out α → Out α) : Prop := ∀ a types ws, fin ⟨a, types, ws⟩ = after ws (fin ⟨a, types, []⟩)

theorem itemResult_frame {α : Type} {sg ds f : Node → Out α → Except Stop (Bool × Out α)} {isD : Node → Bool} {fin : Out α → Out α}
    (hsg : Frame sg) (hds : Frame ds) (hf : Frame f) (hfin : FrameF fin) (n : Node) (a : α) (types : Context) (ws : List Warning) :
    itemResult sg isD ds f fin n ⟨a, types, ws⟩ = afterR ws (itemResult sg isD ds f fin n ⟨a, types, []⟩) := by
  unfold itemResult
  by_cases hk : n.kind = .listItem
  case neg => rw [if_neg hk, if_neg hk]; rfl
  rw [if_pos hk, if_pos hk]
  cases Payload.read n with
  | nil => rfl
  | cons sig blocks =>
    show listResult sg isD ds f fin sig blocks _ = afterR ws (listResult sg isD ds f fin sig blocks _)
    unfold listResult
    rw [hsg sig a types ws]
    cases sg sig ⟨a, types, []⟩ with
    | error e => rfl
    | ok q =>
      obtain ⟨b, a₁, t₁, w₁⟩ := q
      cases b with
      | false => rfl
      | true =>
        simp only [afterS, after]
        rw [walk_frame hds _ a₁ t₁ (ws ++ w₁), walk_frame hds _ a₁ t₁ w₁]
        cases walk ds (blocks.takeWhile isD) ⟨a₁, t₁, []⟩ with
        | error e => rfl
        | ok q =>
          obtain ⟨r, a₂, t₂, w₂⟩ := q
          cases r with
          | cons x r => simp [afterW, afterR, after]
          | nil =>
            simp only [afterW, after]
            rw [walk_frame hf _ a₂ t₂ (ws ++ w₁ ++ w₂), walk_frame hf _ a₂ t₂ (w₁ ++ w₂)]
            cases walk f (blocks.dropWhile isD) ⟨a₂, t₂, []⟩ with
            | error e => rfl
            | ok q =>
              obtain ⟨r, a₃, t₃, w₃⟩ := q
              simp only [afterW, afterR, after]
              rw [hfin a₃ t₃, hfin a₃ t₃ (w₁ ++ w₂ ++ w₃)]
              simp [after]

/-! ## The steps -/

/-- An item that becomes an element. -/
def take {α β : Type} (r : Reader β) (add : Out α → β → Out α) (n : Node) (o : Out α) : Except Stop (Bool × Out α) :=
  match r n o.types with
  | .error e => .error e
  | .ok q => .ok (true, add ⟨o.node, q.types, o.warnings ++ q.warnings⟩ q.node)

/-- A step that says nothing about signatures. -/
def signed {α : Type} (f : Node → Out α → Except Stop (Out α)) (n : Node) (o : Out α) : Except Stop (Bool × Out α) :=
  match f n o with
  | .error e => .error e
  | .ok o => .ok (true, o)

/-- The signature of a type section. -/
def typeSectionSign (n : Node) (o : Out Draft) : Except Stop (Bool × Out Draft) :=
  match readSignature typeSectionTraits n with
  | .error e => .error e
  | .ok (sig, ws) => .ok ((typeSectionFinal sig (o.warn ws)).2, (typeSectionFinal sig (o.warn ws)).1)

/-- A block of a type section. -/
def typeSectionStep (w : World) (R : Readers) (t : SectionType) (n : Node) (o : Out Draft) : Except Stop (Bool × Out Draft) :=
  let stay := Except.ok (false, o)
  if n.kind = .header then stay
  else if t = .msonPropertyMembers ∨ t = .msonValueMembers then
    match typeSectionNested n with
    | .msonMixin => take R.mixin (fun o m => o.push (.mixin m)) n o
    | .msonOneOf =>
      if t ≠ .msonPropertyMembers then .ok (false, o.warn [.misplacedOneOf])
      else take R.oneOf (fun o es => o.push (.oneOf es)) n o
    | .mson =>
      if t = .msonPropertyMembers then take R.property (fun o m => o.push m.made) n o
      else take R.value (fun o m => o.push (.value m.made)) n o
    | _ => stay
  else if t = .msonSampleDefault then
    match typeSectionNested n with
    | .msonMixin => .ok (false, o.warn [.notInSample .msonMixin])
    | .msonOneOf => .ok (false, o.warn [.notInSample .msonOneOf])
    | .mson =>
      let d := o.node
      if isValue d.base ∧ n.kind = .listItem then take R.value (fun o m => o.push (.value m.made)) n o
      else if isObject d.base ∧ n.kind = .listItem then take R.property (fun o m => o.push m.made) n o
      else if isPrimitive d.base then
        match separated d.value with
        | .error e => .error e
        | .ok s => .ok (true, { o with node := { d with value := s ++ sourceOf w n } })
      else stay
    | _ => stay
  else stay

/-- A block of `One Of`. -/
def oneOfStep (R : Readers) (n : Node) (o : Out (List Element)) : Except Stop (Bool × Out (List Element)) :=
  match oneOfNested n with
  | .undefined => .ok (true, o.warn [if n.kind = .header then .unexpectedHeader else .unrecognised])
  | .msonMixin => take R.mixin (fun o m => pushElement o (.mixin m)) n o
  | .msonOneOf => take R.oneOf (fun o es => pushElement o (.oneOf es)) n o
  | .msonPropertyMembers => take (R.typeSection .msonPropertyMembers .object) (fun o d => pushElement o (.group d.elements)) n o
  | .msonPropertyMember => take R.property (fun o m => pushElement o m.made) n o
  | _ => .ok (false, o)

/-- A block under `Include`. -/
def mixinStep (n : Node) (o : Out TypeDef) : Except Stop (Bool × Out TypeDef) :=
  .ok (true, o.warn [if n.kind = .header then .unexpectedHeader else .unrecognised])

/-- A member in the list of members. -/
def msonStep (w : World) (R : Readers) (t : SectionType) (n : Node) (o : Out Body) : Except Stop (Bool × Out Body) :=
  if n.kind = .header then .ok (false, o)
  else if (o.node.sections.getLast?.map DataStructure.Section.klass) = some .description then
    match blockDescription w n o.node.sections with
    | .error e => .error e
    | .ok none => .ok (false, o)
    | .ok (some ss) => .ok (true, { o with node := { o.node with sections := ss } })
  else
    let base := resolveBase n t o.node.base
    let o : Out Body := { o with node := { sections := openSection o.node.sections, base := base } }
    match t with
    | .msonMixin => take R.mixin (fun o m => if !sameBase base m.base then o.warn [.mixinMismatch] else addElement o (.mixin m)) n o
    | .msonOneOf =>
      if !isObject base then .ok (false, o.warn [.misplacedOneOf])
      else take R.oneOf (fun o es => addElement o (.oneOf es)) n o
    | _ =>
      if isValue base ∧ n.kind = .listItem then
        take R.value (fun o m => (addElement o (.value m.made)).warn (checked m .valueOfObjectItem)) n o
      else if isObject base ∧ n.kind = .listItem then
        take R.property (fun o m => (addElement o m.made).warn (checked m.toValueNode .valueOfObject)) n o
      else if isPrimitive base then .ok (false, o.warn [.membersOfPrimitive])
      else .ok (true, o.warn [.unrecognised])

/-- A block of a member. -/
def memberStep (w : World) (R : Readers) (n : Node) (o : Out Body) : Except Stop (Bool × Out Body) :=
  match memberNested n with
  | .mson => msonStep w R .mson n o
  | .msonMixin => msonStep w R .msonMixin n o
  | .msonOneOf => msonStep w R .msonOneOf n o
  | t =>
    let base := resolveBase n t o.node.base
    take (R.typeSection t base) addSection n { o with node := { o.node with base := base } }

/-- A step on the body. -/
def Lens.step {α : Type} (l : Lens α) (f : Node → Out Body → Except Stop (Bool × Out Body)) (n : Node) (o : Out α) :
    Except Stop (Bool × Out α) :=
  match f n { o with node := l.get o.node } with
  | .error e => .error e
  | .ok (b, o') => .ok (b, { o' with node := l.set o'.node o.node })

/-- A block of description. -/
def describe (w : World) (n : Node) (o : Out Body) : Except Stop (Bool × Out Body) :=
  match blockDescription w n o.node.sections with
  | .error e => .error e
  | .ok none => .ok (false, o)
  | .ok (some ss) => .ok (true, { o with node := { o.node with sections := ss } })

/-- The signature of a member, without its place. -/
def unplaced {α : Type} (f : Node → PD (Out α) → Except Stop (Out α)) (n : Node) (o : Out α) : Except Stop (Out α) := f n ⟨[], o⟩

/-- A member. -/
def Lens.read {α : Type} (l : Lens α) (w : World) (R : Readers) (sg : Node → PD (Out α) → Except Stop (Out α)) (fin : Out α → Out α)
    (n : Node) (o : Out α) : Except Stop (Out α) :=
  itemResult (signed (unplaced sg)) memberDescription (l.step (describe w)) (l.step (memberStep w R)) fin n o

/-- The signature of `Include`. -/
def mixinSign (n : Node) (o : Out TypeDef) : Except Stop (Out TypeDef) :=
  match readSignature typeTraits n with
  | .error e => .error e
  | .ok (sig, ws) => .ok (mixinFinal sig (o.warn ws))

/-- The signature of `One Of`. -/
def oneOfSign (n : Node) (o : Out (List Element)) : Except Stop (Out (List Element)) :=
  match readSignature oneOfTraits n with
  | .error e => .error e
  | .ok (_, ws) => .ok (o.warn ws)

/-- The end of `One Of`. -/
def oneOfFinal (o : Out (List Element)) : Out (List Element) := o.warn (if o.node.isEmpty then [.emptyOneOf] else [])

/-- Nothing is description. -/
def never : Node → Bool := fun _ => false

/-- No description. -/
def noDescription {σ : Type} : Node → σ → Except Stop (Bool × σ) := fun _ d => .ok (false, d)

/-- What is made of items that are nested less deep than the bound. -/
def readers (w : World) : Nat → Readers
  | 0 => ⟨fun _ _ _ _ => .error .diverges, fun _ _ => .error .diverges, fun _ _ => .error .diverges,
      fun _ _ => .error .diverges, fun _ _ => .error .diverges⟩
  | d + 1 =>
    { typeSection := fun t b n types =>
        itemResult typeSectionSign never noDescription (typeSectionStep w (readers w d) t) id n ⟨{ base := b }, types, []⟩
      mixin := fun n types => itemResult (signed mixinSign) never noDescription mixinStep id n ⟨{}, types, []⟩
      oneOf := fun n types => itemResult (signed oneOfSign) never noDescription (oneOfStep (readers w d)) oneOfFinal n ⟨[], types, []⟩
      value := fun n types => valueLens.read w (readers w d) (valueSignature w) valueFinalize n ⟨{}, types, []⟩
      property := fun n types => propertyLens.read w (readers w d) (propertySignature w) propertyFinalize n ⟨{}, types, []⟩ }

/-! ## Steps keep to themselves -/

theorem take_frame {α β : Type} (r : Reader β) {add : Out α → β → Out α}
    (h : ∀ a types ws b, add ⟨a, types, ws⟩ b = after ws (add ⟨a, types, []⟩ b)) : Frame (take r add) := by
  intro n a types ws
  unfold take
  cases r n types with
  | error e => rfl
  | ok q =>
    simp only [afterS, List.nil_append]
    rw [h a q.types (ws ++ q.warnings), h a q.types q.warnings, after_after]

theorem signed_frame {α : Type} {f : Node → Out α → Except Stop (Out α)}
    (h : ∀ n a types ws, f n ⟨a, types, ws⟩ = afterR ws (f n ⟨a, types, []⟩)) : Frame (signed f) := by
  intro n a types ws
  unfold signed
  rw [h]
  cases f n ⟨a, types, []⟩ <;> rfl

theorem final_frame (sig : Signature) (a : Draft) (types : Context) (ws : List Warning) :
    typeSectionFinal sig ⟨a, types, ws⟩ = (after ws (typeSectionFinal sig ⟨a, types, []⟩).1, (typeSectionFinal sig ⟨a, types, []⟩).2) := by
  unfold typeSectionFinal
  simp only
  split
  · simp [after]
  split
  · simp [after]
  split
  · split <;> simp [after, Out.warn]
  split
  · split <;> simp [after, Out.warn]
  simp [after]

theorem typeSectionSign_frame : Frame typeSectionSign := by
  intro n a types ws
  unfold typeSectionSign
  cases readSignature typeSectionTraits n with
  | error e => rfl
  | ok q =>
    obtain ⟨sig, v⟩ := q
    simp only [Out.warn, List.nil_append, afterS]
    rw [final_frame sig a types (ws ++ v), final_frame sig a types v, after_after]

theorem typeSectionStep_frame (w : World) (R : Readers) (t : SectionType) : Frame (typeSectionStep w R t) := by
  intro n a types ws
  have h1 : ∀ {β : Type} (r : Reader β) (g : β → Element), take r (fun o m => Out.push o (g m)) n ⟨a, types, ws⟩ =
      afterS ws (take r (fun o m => Out.push o (g m)) n ⟨a, types, []⟩) := by
    intro β r g
    exact take_frame r (by intros; simp [Out.push, after]) n a types ws
  unfold typeSectionStep
  simp only
  split
  · simp [afterS, after]
  split
  · split
    · exact h1 R.mixin Element.mixin
    · split
      · simp [afterS, after, Out.warn]
      · exact h1 R.oneOf Element.oneOf
    · split
      · exact h1 R.property PropertyNode.made
      · exact h1 R.value (fun m => .value m.made)
    · simp [afterS, after]
  split
  · split
    · simp [afterS, after, Out.warn]
    · simp [afterS, after, Out.warn]
    · split
      · exact h1 R.value (fun m => .value m.made)
      split
      · exact h1 R.property PropertyNode.made
      split
      · cases separated a.value <;> simp [afterS, after]
      · simp [afterS, after]
    · simp [afterS, after]
  · simp [afterS, after]

theorem oneOfStep_frame (R : Readers) : Frame (oneOfStep R) := by
  intro n a types ws
  have h1 : ∀ {β : Type} (r : Reader β) (g : β → Element), take r (fun o m => pushElement o (g m)) n ⟨a, types, ws⟩ =
      afterS ws (take r (fun o m => pushElement o (g m)) n ⟨a, types, []⟩) := by
    intro β r g
    exact take_frame r (by intros; simp [pushElement, after]) n a types ws
  unfold oneOfStep
  split
  · simp [afterS, after, Out.warn]
  · exact h1 R.mixin Element.mixin
  · exact h1 R.oneOf Element.oneOf
  · exact h1 _ (fun d : Draft => .group d.elements)
  · exact h1 R.property PropertyNode.made
  · simp [afterS, after]

theorem mixinStep_frame : Frame mixinStep := by
  intro n a types ws
  simp [mixinStep, afterS, after, Out.warn]

theorem describe_frame (w : World) : Frame (describe w) := by
  intro n a types ws
  unfold describe
  simp only
  split <;> simp [afterS, after]

theorem msonStep_frame (w : World) (R : Readers) (t : SectionType) : Frame (msonStep w R t) := by
  intro n a types ws
  unfold msonStep
  simp only
  split
  · simp [afterS, after]
  split
  · split <;> simp [afterS, after]
  split
  · exact take_frame R.mixin (by intros; split <;> simp [Out.warn, addElement, after]) n _ types ws
  · split
    · simp [afterS, after, Out.warn]
    · exact take_frame R.oneOf (by intros; simp [addElement, after]) n _ types ws
  · split
    · exact take_frame R.value (by intros; simp [addElement, after, Out.warn]) n _ types ws
    split
    · exact take_frame R.property (by intros; simp [addElement, after, Out.warn]) n _ types ws
    split
    · simp [afterS, after, Out.warn]
    · simp [afterS, after, Out.warn]

theorem memberStep_frame (w : World) (R : Readers) : Frame (memberStep w R) := by
  intro n a types ws
  unfold memberStep
  split
  · exact msonStep_frame w R _ n a types ws
  · exact msonStep_frame w R _ n a types ws
  · exact msonStep_frame w R _ n a types ws
  · exact take_frame _ (by intros; unfold addSection; split <;> simp [after]) n _ types ws

theorem Lens.step_frame {α : Type} (l : Lens α) {f : Node → Out Body → Except Stop (Bool × Out Body)} (h : Frame f) :
    Frame (l.step f) := by
  intro n a types ws
  unfold Lens.step
  simp only
  rw [h]
  cases f n ⟨l.get a, types, []⟩ <;> simp [afterS, after]

theorem Lens.read_frame {α : Type} (l : Lens α) (w : World) (R : Readers) {sg : Node → PD (Out α) → Except Stop (Out α)}
    {fin : Out α → Out α} (hsg : ∀ n a types ws, sg n ⟨[], a, types, ws⟩ = afterR ws (sg n ⟨[], a, types, []⟩)) (hfin : FrameF fin)
    (n : Node) (a : α) (types : Context) (ws : List Warning) :
    l.read w R sg fin n ⟨a, types, ws⟩ = afterR ws (l.read w R sg fin n ⟨a, types, []⟩) :=
  itemResult_frame (signed_frame hsg) (l.step_frame (describe_frame w)) (l.step_frame (memberStep_frame w R)) hfin n a types ws

theorem valueSignature_frame (w : World) (n : Node) (a : ValueNode) (types : Context) (ws : List Warning) :
    valueSignature w n ⟨[], a, types, ws⟩ = afterR ws (valueSignature w n ⟨[], a, types, []⟩) := by
  unfold valueSignature
  cases readMember w valueTraits n <;> simp [afterR, after]

theorem propertySignature_frame (w : World) (n : Node) (a : PropertyNode) (types : Context) (ws : List Warning) :
    propertySignature w n ⟨[], a, types, ws⟩ = afterR ws (propertySignature w n ⟨[], a, types, []⟩) := by
  unfold propertySignature
  cases readMember w propertyTraits n with
  | error e => rfl
  | ok q =>
    obtain ⟨sig, v⟩ := q
    simp only
    split <;> simp [afterR, after]

theorem valueFinalize_frame : FrameF valueFinalize := by
  intro a types ws; simp [valueFinalize, after]

theorem propertyFinalize_frame : FrameF propertyFinalize := by
  intro a types ws; simp [propertyFinalize, after]

theorem mixinSign_frame (n : Node) (a : TypeDef) (types : Context) (ws : List Warning) :
    mixinSign n ⟨a, types, ws⟩ = afterR ws (mixinSign n ⟨a, types, []⟩) := by
  unfold mixinSign
  cases readSignature typeTraits n <;> simp [afterR, after, mixinFinal, Out.warn]

theorem oneOfSign_frame (n : Node) (a : List Element) (types : Context) (ws : List Warning) :
    oneOfSign n ⟨a, types, ws⟩ = afterR ws (oneOfSign n ⟨a, types, []⟩) := by
  unfold oneOfSign
  cases readSignature oneOfTraits n <;> simp [afterR, after, Out.warn]

theorem noDescription_frame {α : Type} : Frame (noDescription (σ := Out α)) := by
  intro n a types ws; simp [noDescription, afterS, after]

theorem id_frame {α : Type} : FrameF (id : Out α → Out α) := by
  intro a types ws; simp [after]

theorem oneOfFinal_frame : FrameF oneOfFinal := by
  intro a types ws; simp [oneOfFinal, after, Out.warn]

/-! ## The parsers do what the readers say -/

/-- The parser of an item does what the reader says, wherever the item stands. -/
def AgreesOn {β : Type} (p : Parse (Out β)) (new : β) (r : Reader β) (ctx : List SectionType) : Prop :=
  ∀ ns i n types ws, ns[i]? = some n → p ns i ⟨ctx, new, types, ws⟩ = outcome i ctx (afterR ws (r n types))

/-- All of them do. -/
structure Agrees (P : Parsers) (R : Readers) : Prop where
  typeSection : ∀ t ctx b, AgreesOn (P.typeSection .list) { base := b } (R.typeSection t b) (t :: ctx)
  mixin : ∀ ctx, AgreesOn P.mixin {} R.mixin ctx
  oneOf : ∀ ctx, AgreesOn P.oneOf [] R.oneOf ctx
  value : ∀ ctx, AgreesOn P.value {} R.value ctx
  property : ∀ ctx, AgreesOn P.property {} R.property ctx

/-- What a processor answers after a step. -/
def replied {σ : Type} (i : Nat) (ctx : List SectionType) : Except Stop (Bool × σ) → Except Stop (Reply σ Unit)
  | .error e => .error e
  | .ok (b, d) => .ok (.done (if b then i + 1 else i) () ⟨ctx, d⟩)

theorem element_take {α β : Type} {p : Parse (Out β)} {new : β} {r : Reader β} {ctx : List SectionType} (h : AgreesOn p new r ctx)
    (add : Out α → β → Out α) {ns : List Node} {i : Nat} {n : Node} (hi : ns[i]? = some n) (o : Out α) :
    element p new add ns i ⟨ctx, o⟩ = replied i ctx (take r add n o) := by
  unfold element call take
  simp only
  rw [h ns i n o.types o.warnings hi]
  cases r n o.types <;> rfl

theorem nestedStep_done {σ : Type} {o : Own σ} {ns : List Node} {n : Node} {i : Nat} {last : SectionType} {ctx : List SectionType} {d : σ}
    {r : Except Stop (Bool × σ)} (ht : o.nestedType n ≠ .undefined) (h : o.nested ns i ⟨ctx, d⟩ = replied i ctx r) :
    nestedStep o true noChild ns n i last ⟨ctx, d⟩ = moved i ctx r := by
  unfold nestedStep
  rw [if_pos ht, h]
  cases r <;> rfl

theorem typeSectionNested_ne (n : Node) : typeSectionNested n ≠ .undefined := by
  unfold typeSectionNested; simp only; split
  · assumption
  · decide

theorem memberNested_ne (n : Node) : memberNested n ≠ .undefined := by
  unfold memberNested; simp only; split
  · assumption
  · decide

theorem typeSectionNested_step {w : World} {P : Parsers} {R : Readers} (h : Agrees P R) (t : SectionType) (ctx : List SectionType)
    {ns : List Node} {j : Nat} {m : Node} (hm : ns[j]? = some m) (d : Out Draft) :
    typeSectionNestedSection w P ns j ⟨typeSectionNested m :: t :: ctx, d⟩ =
      replied j (typeSectionNested m :: t :: ctx) (typeSectionStep w R t m d) := by
  unfold typeSectionNestedSection typeSectionStep
  simp only [hm]
  generalize hp : PD.parent (⟨typeSectionNested m :: t :: ctx, d⟩ : PD (Out Draft)) = t'
  generalize hq : PD.top (⟨typeSectionNested m :: t :: ctx, d⟩ : PD (Out Draft)) = t''
  have ht' : t = t' := hp
  have ht'' : typeSectionNested m = t'' := hq
  clear hp hq
  subst ht' ht''
  simp only [PD.set]
  by_cases h0 : m.kind = .header
  · simp only [if_pos h0]; rfl
  simp only [if_neg h0]
  generalize typeSectionNested m = s
  by_cases h1 : t = .msonPropertyMembers ∨ t = .msonValueMembers
  · simp only [if_pos h1]
    cases s <;> first
      | rfl
      | exact element_take (h.mixin _) _ hm d
      | (by_cases h2 : t = .msonPropertyMembers
         · simp only [h2, ne_eq, not_true_eq_false, if_false, if_true]
           first
             | exact element_take (h.oneOf _) _ hm d
             | exact element_take (h.property _) _ hm d
         · simp only [h2, ne_eq, not_false_eq_true, if_false, if_true]
           first
             | rfl
             | exact element_take (h.value _) _ hm d)
  simp only [if_neg h1]
  by_cases h3 : t = .msonSampleDefault
  · simp only [if_pos h3]
    cases s <;> first
      | rfl
      | (by_cases h4 : isValue d.node.base = true ∧ m.kind = .listItem
         · simp only [if_pos h4]
           exact element_take (h.value _) _ hm d
         · simp only [if_neg h4]
           by_cases h5 : isObject d.node.base = true ∧ m.kind = .listItem
           · simp only [if_pos h5]
             exact element_take (h.property _) _ hm d
           · simp only [if_neg h5]
             by_cases h6 : isPrimitive d.node.base = true
             · simp only [if_pos h6]
               cases separated d.node.value <;> rfl
             · simp only [if_neg h6]; rfl)
  · simp only [if_neg h3]; rfl

theorem typeSection_list {w : World} {P : Parsers} {R : Readers} (h : Agrees P R) (t : SectionType) (ctx : List SectionType) (b : Base) :
    AgreesOn (parseSection (typeSectionOwn w P) .list noChild) { base := b }
      (fun n types => itemResult typeSectionSign never noDescription (typeSectionStep w R t) id n ⟨{ base := b }, types, []⟩) (t :: ctx) := by
  intro ns i n types ws hi
  rw [← itemResult_frame typeSectionSign_frame noDescription_frame (typeSectionStep_frame w R t) id_frame]
  refine parse_list _ hi ?_ ?_ ?_ ?_ ?_ ?_ ?_ ?_
  · intro ns j d hn; simp only [typeSectionOwn, typeSectionSignature, hn]
  · intro ns j m d hm
    simp only [typeSectionOwn, typeSectionSignature, hm, typeSectionSign]
    cases readSignature typeSectionTraits m <;> rfl
  · intro n d; rfl
  · intro ns j m d _ hd; simp [never] at hd
  · intro n t; rfl
  · intro ns j d; rfl
  · intro ns j m last d hm
    exact nestedStep_done (typeSectionNested_ne m) (typeSectionNested_step h t ctx hm d)
  · intro ns j d; rfl

theorem mixin_list (ctx : List SectionType) :
    AgreesOn (parseSection mixinOwn .list noChild) {}
      (fun n types => itemResult (signed mixinSign) never noDescription mixinStep id n ⟨{}, types, []⟩) ctx := by
  intro ns i n types ws hi
  rw [← itemResult_frame (signed_frame mixinSign_frame) noDescription_frame mixinStep_frame id_frame]
  refine parse_list _ hi ?_ ?_ ?_ ?_ ?_ ?_ ?_ ?_
  · intro ns j d hn; simp only [mixinOwn, oneSignature, hn]
  · intro ns j m d hm
    simp only [mixinOwn, oneSignature, hm, signed, mixinSign]
    cases readSignature typeTraits m <;> rfl
  · intro n d; rfl
  · intro ns j m d _ hd; simp [never] at hd
  · intro n t; rfl
  · intro ns j d; rfl
  · intro ns j m last d hm
    unfold nestedStep
    simp only [mixinOwn, ne_eq, not_true_eq_false, if_false, Bool.true_or, if_true, unexpected, hm]
    rfl
  · intro ns j d; rfl

theorem oneOf_list {P : Parsers} {R : Readers} (h : Agrees P R) (ctx : List SectionType) :
    AgreesOn (parseSection (oneOfOwn P) .list noChild) []
      (fun n types => itemResult (signed oneOfSign) never noDescription (oneOfStep R) oneOfFinal n ⟨[], types, []⟩) ctx := by
  intro ns i n types ws hi
  rw [← itemResult_frame (signed_frame oneOfSign_frame) noDescription_frame (oneOfStep_frame R) oneOfFinal_frame]
  refine parse_list _ hi ?_ ?_ ?_ ?_ ?_ ?_ ?_ ?_
  · intro ns j d hn; simp only [oneOfOwn, oneSignature, hn]
  · intro ns j m d hm
    simp only [oneOfOwn, oneSignature, hm, signed, oneOfSign]
    cases readSignature oneOfTraits m <;> rfl
  · intro n d; rfl
  · intro ns j m d _ hd; simp [never] at hd
  · intro n t; rfl
  · intro ns j d; rfl
  · intro ns j m last d hm
    by_cases hu : oneOfNested m = .undefined
    · unfold nestedStep
      simp only [oneOfOwn, hu, ne_eq, not_true_eq_false, if_false, Bool.true_or, if_true, unexpected, hm, oneOfStep]
      rfl
    · refine nestedStep_done hu ?_
      have hx : ∀ t, oneOfNested m = t → oneOfNestedSection P ns j ⟨oneOfNested m :: ctx, d⟩ =
          replied j (oneOfNested m :: ctx) (oneOfStep R m d) := by
        intro t ht
        unfold oneOfNestedSection oneOfStep
        simp only [PD.top, ht]
        cases t <;> first
          | exact absurd ht hu
          | rfl
          | exact element_take (h.mixin _) _ hm d
          | exact element_take (h.oneOf _) _ hm d
          | exact element_take (h.property _) _ hm d
          | exact element_take (h.typeSection _ _ _) _ hm d
      exact hx _ rfl
  · intro ns j d; rfl

theorem msonSection_step {w : World} {P : Parsers} {R : Readers} (h : Agrees P R) {t : SectionType} {ctx : List SectionType}
    {ns : List Node} {i : Nat} {n : Node} (hi : ns[i]? = some n) (o : Out Body) :
    msonSection w P ns i ⟨t :: ctx, o⟩ = replied i (t :: ctx) (msonStep w R t n o) := by
  unfold msonSection msonStep
  simp only [hi]
  generalize hp : PD.top (⟨t :: ctx, o⟩ : PD (Out Body)) = t'
  have ht' : t = t' := hp
  clear hp
  subst ht'
  simp only [PD.set]
  generalize hp : PD.top (⟨t :: ctx, ⟨⟨openSection o.node.sections, resolveBase n t o.node.base⟩, o.types, o.warnings⟩⟩ : PD (Out Body)) = t'
  have ht' : t = t' := hp
  clear hp
  subst ht'
  split
  · rfl
  split
  · split <;> simp [*, replied]
  have hrest : (if isValue (resolveBase n t o.node.base) ∧ n.kind = .listItem then
        element P.value {} (fun o m => (addElement o (.value m.made)).warn (checked m .valueOfObjectItem)) ns i
          ⟨t :: ctx, ⟨⟨openSection o.node.sections, resolveBase n t o.node.base⟩, o.types, o.warnings⟩⟩
      else if isObject (resolveBase n t o.node.base) ∧ n.kind = .listItem then
        element P.property {} (fun o m => (addElement o m.made).warn (checked m.toValueNode .valueOfObject)) ns i
          ⟨t :: ctx, ⟨⟨openSection o.node.sections, resolveBase n t o.node.base⟩, o.types, o.warnings⟩⟩
      else if isPrimitive (resolveBase n t o.node.base) then .ok (.done i () ⟨t :: ctx,
        Out.warn ⟨⟨openSection o.node.sections, resolveBase n t o.node.base⟩, o.types, o.warnings⟩ [.membersOfPrimitive]⟩)
      else .ok (.done (i + 1) () ⟨t :: ctx,
        Out.warn ⟨⟨openSection o.node.sections, resolveBase n t o.node.base⟩, o.types, o.warnings⟩ [.unrecognised]⟩)) =
      replied i (t :: ctx) (if isValue (resolveBase n t o.node.base) ∧ n.kind = .listItem then
        take R.value (fun o m => (addElement o (.value m.made)).warn (checked m .valueOfObjectItem)) n
          ⟨⟨openSection o.node.sections, resolveBase n t o.node.base⟩, o.types, o.warnings⟩
      else if isObject (resolveBase n t o.node.base) ∧ n.kind = .listItem then
        take R.property (fun o m => (addElement o m.made).warn (checked m.toValueNode .valueOfObject)) n
          ⟨⟨openSection o.node.sections, resolveBase n t o.node.base⟩, o.types, o.warnings⟩
      else if isPrimitive (resolveBase n t o.node.base) then .ok (false,
        Out.warn ⟨⟨openSection o.node.sections, resolveBase n t o.node.base⟩, o.types, o.warnings⟩ [.membersOfPrimitive])
      else .ok (true,
        Out.warn ⟨⟨openSection o.node.sections, resolveBase n t o.node.base⟩, o.types, o.warnings⟩ [.unrecognised])) := by
    split
    · exact element_take (h.value _) _ hi _
    split
    · exact element_take (h.property _) _ hi _
    split
    · rfl
    · rfl
  cases t <;> first
    | exact hrest
    | exact element_take (h.mixin _) _ hi _
    | (by_cases h2 : (!isObject (resolveBase n .msonOneOf o.node.base)) = true
       · simp only [if_pos h2]; rfl
       · simp only [if_neg h2]; exact element_take (h.oneOf _) _ hi _)

theorem nestedMembers_step {w : World} {P : Parsers} {R : Readers} (h : Agrees P R) {ctx : List SectionType} {ns : List Node} {i : Nat}
    {n : Node} (hi : ns[i]? = some n) (o : Out Body) :
    nestedMembers w P .list ns i ⟨memberNested n :: ctx, o⟩ = replied i (memberNested n :: ctx) (memberStep w R n o) := by
  have hx : ∀ t, memberNested n = t → nestedMembers w P .list ns i ⟨memberNested n :: ctx, o⟩ =
      replied i (memberNested n :: ctx) (memberStep w R n o) := by
    intro t ht
    unfold nestedMembers memberStep
    simp only [PD.top, ht, hi, PD.set]
    cases t <;> first
      | exact msonSection_step h hi o
      | exact element_take (h.typeSection _ _ _) _ hi _
  exact hx _ rfl

theorem Lens.own_list {α : Type} (l : Lens α) {w : World} {P : Parsers} {R : Readers} (h : Agrees P R)
    {sg : Node → PD (Out α) → Except Stop (Out α)} {fin : Out α → Out α} (ctx : List SectionType) (a : α)
    (hl : ∀ a, l.set (l.get a) a = a) (hctx : ∀ n ctx o, sg n ⟨ctx, o⟩ = sg n ⟨[], o⟩)
    (hsg : ∀ n a types ws, sg n ⟨[], a, types, ws⟩ = afterR ws (sg n ⟨[], a, types, []⟩)) (hfin : FrameF fin) :
    AgreesOn (parseSection (l.own w P .list sg fin) .list noChild) a (fun n types => l.read w R sg fin n ⟨a, types, []⟩) ctx := by
  intro ns i n types ws hi
  rw [← l.read_frame w R hsg hfin]
  refine parse_list _ hi ?_ ?_ ?_ ?_ ?_ ?_ ?_ ?_
  · intro ns j d hn; simp only [Lens.own, oneSignature, hn]
  · intro ns j m d hm
    simp only [Lens.own, oneSignature, hm, signed, unplaced, hctx m ctx]
    cases sg m ⟨[], d⟩ <;> rfl
  · intro n d; rfl
  · intro ns j m d hm _
    simp only [Lens.own, Lens.description, hm, Lens.step, describe, PD.set]
    split <;> simp [*, moved, hl]
  · intro n t; rfl
  · intro ns j d; rfl
  · intro ns j m last d hm
    refine nestedStep_done (memberNested_ne m) ?_
    simp only [Lens.own, Lens.nested, Lens.step]
    rw [nestedMembers_step h hm]
    cases memberStep w R m ⟨l.get d.node, d.types, d.warnings⟩ <;> rfl
  · intro ns j d; rfl

theorem value_list {w : World} {P : Parsers} {R : Readers} (h : Agrees P R) (ctx : List SectionType) :
    AgreesOn (parseSection (valueOwn w P) .list noChild) {}
      (fun n types => valueLens.read w R (valueSignature w) valueFinalize n ⟨{}, types, []⟩) ctx :=
  valueLens.own_list h ctx {} (fun _ => rfl) (fun _ _ _ => rfl) (valueSignature_frame w) valueFinalize_frame

theorem property_list {w : World} {P : Parsers} {R : Readers} (h : Agrees P R) (ctx : List SectionType) :
    AgreesOn (parseSection (propertyOwn w P) .list noChild) {}
      (fun n types => propertyLens.read w R (propertySignature w) propertyFinalize n ⟨{}, types, []⟩) ctx :=
  propertyLens.own_list h ctx {} (fun _ => rfl) (fun _ _ _ => rfl) (propertySignature_frame w) propertyFinalize_frame

theorem agrees (w : World) : ∀ d, Agrees (parsers w d) (readers w d)
  | 0 => ⟨fun _ _ _ _ _ _ _ _ _ => rfl, fun _ _ _ _ _ _ _ => rfl, fun _ _ _ _ _ _ _ => rfl, fun _ _ _ _ _ _ _ => rfl,
      fun _ _ _ _ _ _ _ => rfl⟩
  | d + 1 =>
    { typeSection := typeSection_list (agrees w d)
      mixin := mixin_list
      oneOf := oneOf_list (agrees w d)
      value := value_list (agrees w d)
      property := property_list (agrees w d) }

end Verif.MsonParser
