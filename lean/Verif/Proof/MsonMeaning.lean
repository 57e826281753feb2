import Verif.Proof.MsonReaders
import Verif.Proof.Signature

/-! # The depth bound does not matter -/

namespace Verif.MsonParser
open Verif Verif.Text Verif.Section Verif.Recognition Verif.Signature
open Verif.Mson (Base TypeDef ValueDef PropertyName Context)
open Verif.DataStructure (Klass Element Member NamedType)
open Verif.Payload (outcome)

theorem depth_mem : ∀ {cs : List Node} {c : Node}, c ∈ cs → depth c ≤ depth.depths cs
  | d :: cs, c, h => by
    rw [depth.depths]
    rcases List.mem_cons.mp h with rfl | h
    · omega
    · have := depth_mem h; omega

theorem depth_eq (n : Node) : depth n = depth.depths n.children + 1 := by
  cases n; rw [depth]; rfl

theorem depth_pos (n : Node) : 0 < depth n := by rw [depth_eq]; omega

theorem walk_congr {σ : Type} {f g : Node → σ → Except Stop (Bool × σ)} : ∀ {ns : List Node}, (∀ n ∈ ns, ∀ d, f n d = g n d) →
    ∀ d, walk f ns d = walk g ns d
  | [], _, d => rfl
  | n :: ns, h, d => by
    rw [walk, walk, h n (by simp) d]
    cases g n d with
    | error e => rfl
    | ok q =>
      obtain ⟨b, d'⟩ := q
      cases b with
      | true => exact walk_congr (fun m hm => h m (by simp [hm])) d'
      | false => rfl

theorem itemResult_congr {σ : Type} {sg ds f g : Node → σ → Except Stop (Bool × σ)} {isD : Node → Bool} {fin : σ → σ} {n : Node}
    (h : ∀ m ∈ n.children, ∀ d, f m d = g m d) (d : σ) : itemResult sg isD ds f fin n d = itemResult sg isD ds g fin n d := by
  unfold itemResult
  split
  case isFalse => rfl
  cases hr : Payload.read n with
  | nil => rfl
  | cons sig blocks =>
    have hb : ∀ m ∈ blocks.dropWhile isD, m ∈ n.children := by
      intro m hm
      have : m ∈ Payload.read n := by rw [hr]; exact List.mem_cons_of_mem _ (List.dropWhile_sublist _ |>.subset hm)
      exact List.mem_of_mem_drop this
    show listResult sg isD ds f fin sig blocks d = listResult sg isD ds g fin sig blocks d
    unfold listResult
    have hw : ∀ d, walk f (blocks.dropWhile isD) d = walk g (blocks.dropWhile isD) d := walk_congr fun m hm => h m (hb m hm)
    simp only [hw]

/-- The readers say the same about the item. -/
structure Same (R S : Readers) (n : Node) : Prop where
  typeSection : ∀ t b types, R.typeSection t b n types = S.typeSection t b n types
  mixin : ∀ types, R.mixin n types = S.mixin n types
  oneOf : ∀ types, R.oneOf n types = S.oneOf n types
  value : ∀ types, R.value n types = S.value n types
  property : ∀ types, R.property n types = S.property n types

theorem take_same {α β : Type} {r s : Reader β} {n : Node} (h : ∀ types, r n types = s n types) (add : Out α → β → Out α) (o : Out α) :
    take r add n o = take s add n o := by
  unfold take; rw [h]

theorem typeSectionStep_same {R S : Readers} {n : Node} (h : Same R S n) (w : World) (t : SectionType) (o : Out Draft) :
    typeSectionStep w R t n o = typeSectionStep w S t n o := by
  unfold typeSectionStep
  simp only [take_same h.mixin, take_same h.oneOf, take_same h.value, take_same h.property]

theorem oneOfStep_same {R S : Readers} {n : Node} (h : Same R S n) (o : Out (List Element)) : oneOfStep R n o = oneOfStep S n o := by
  unfold oneOfStep
  simp only [take_same h.mixin, take_same h.oneOf, take_same h.property, take_same (h.typeSection _ _)]

theorem memberStep_same {R S : Readers} {n : Node} (h : Same R S n) (w : World) (o : Out Body) :
    memberStep w R n o = memberStep w S n o := by
  unfold memberStep msonStep
  simp only [take_same h.mixin, take_same h.oneOf, take_same h.value, take_same h.property, take_same (h.typeSection _ _)]

theorem Lens.step_same {α : Type} (l : Lens α) {R S : Readers} {n : Node} (h : Same R S n) (w : World) (o : Out α) :
    l.step (memberStep w R) n o = l.step (memberStep w S) n o := by
  unfold Lens.step; rw [memberStep_same h]

/-- One more layer. -/
def layer (w : World) (R : Readers) : Readers where
  typeSection := fun t b n types => itemResult typeSectionSign never noDescription (typeSectionStep w R t) id n ⟨{ base := b }, types, []⟩
  mixin := fun n types => itemResult (signed mixinSign) never noDescription mixinStep id n ⟨{}, types, []⟩
  oneOf := fun n types => itemResult (signed oneOfSign) never noDescription (oneOfStep R) oneOfFinal n ⟨[], types, []⟩
  value := fun n types => valueLens.read w R (valueSignature w) valueFinalize n ⟨{}, types, []⟩
  property := fun n types => propertyLens.read w R (propertySignature w) propertyFinalize n ⟨{}, types, []⟩

theorem readers_succ (w : World) (d : Nat) : readers w (d + 1) = layer w (readers w d) := rfl

theorem layer_same (w : World) {R S : Readers} {n : Node} (h : ∀ c ∈ n.children, Same R S c) : Same (layer w R) (layer w S) n where
  typeSection t b types := itemResult_congr (fun c hc d => typeSectionStep_same (h c hc) w t d) _
  mixin _ := rfl
  oneOf types := itemResult_congr (fun c hc d => oneOfStep_same (h c hc) d) _
  value types := itemResult_congr (fun c hc d => valueLens.step_same (h c hc) w d) _
  property types := itemResult_congr (fun c hc d => propertyLens.step_same (h c hc) w d) _

theorem readers_same (w : World) : ∀ d e n, depth n ≤ d → depth n ≤ e → Same (readers w d) (readers w e) n
  | 0, _, n, h, _ => absurd (depth_pos n) (by omega)
  | _ + 1, 0, n, _, h => absurd (depth_pos n) (by omega)
  | d + 1, e + 1, n, h, h' => by
    rw [readers_succ, readers_succ]
    refine layer_same w fun c hc => ?_
    have := depth_mem hc
    rw [depth_eq] at h h'
    exact readers_same w d e c (by omega) (by omega)

/-- What is made of an item. -/
def meaning (w : World) : Readers where
  typeSection t b n := (readers w (depth n)).typeSection t b n
  mixin n := (readers w (depth n)).mixin n
  oneOf n := (readers w (depth n)).oneOf n
  value n := (readers w (depth n)).value n
  property n := (readers w (depth n)).property n

theorem readers_meaning (w : World) {d : Nat} {n : Node} (h : depth n ≤ d) : Same (readers w d) (meaning w) n :=
  have s := readers_same w d (depth n) n h (Nat.le_refl _)
  ⟨s.typeSection, s.mixin, s.oneOf, s.value, s.property⟩

theorem meaning_layer (w : World) (n : Node) : Same (meaning w) (layer w (meaning w)) n := by
  have hd : depth n = depth.depths n.children + 1 := depth_eq n
  have h1 : Same (layer w (readers w (depth.depths n.children))) (layer w (meaning w)) n :=
    layer_same w fun c hc => readers_meaning w (depth_mem hc)
  rw [← readers_succ, ← hd] at h1
  exact ⟨h1.typeSection, h1.mixin, h1.oneOf, h1.value, h1.property⟩

/-! ## Nothing runs for ever -/

/-- It does not run for ever. -/
def Ends {α : Type} (r : Except Stop α) : Prop := r ≠ .error .diverges

theorem walk_ends {σ : Type} {f : Node → σ → Except Stop (Bool × σ)} : ∀ {ns : List Node}, (∀ n ∈ ns, ∀ d, Ends (f n d)) →
    ∀ d, Ends (walk f ns d)
  | [], _, d => by simp [walk, Ends]
  | n :: ns, h, d => by
    have hn := h n (by simp) d
    unfold walk
    cases hf : f n d with
    | error e => rw [hf] at hn; intro h'; exact hn (by cases h'; rfl)
    | ok q =>
      obtain ⟨b, d'⟩ := q
      cases b with
      | true => exact walk_ends (fun m hm => h m (by simp [hm])) d'
      | false => simp [Ends]

theorem itemResult_ends {σ : Type} {sg ds f : Node → σ → Except Stop (Bool × σ)} {isD : Node → Bool} {fin : σ → σ} {n : Node}
    (hsg : ∀ m d, Ends (sg m d)) (hds : ∀ m d, Ends (ds m d)) (h : ∀ m ∈ n.children, ∀ d, Ends (f m d)) (d : σ) :
    Ends (itemResult sg isD ds f fin n d) := by
  unfold itemResult
  split
  case isFalse => simp [Ends]
  cases hr : Payload.read n with
  | nil => simp [Ends]
  | cons sig blocks =>
    have hb : ∀ m ∈ blocks.dropWhile isD, m ∈ n.children := by
      intro m hm
      have : m ∈ Payload.read n := by rw [hr]; exact List.mem_cons_of_mem _ (List.dropWhile_sublist _ |>.subset hm)
      exact List.mem_of_mem_drop this
    show Ends (listResult sg isD ds f fin sig blocks d)
    unfold listResult
    have h1 := hsg sig d
    cases hs : sg sig d with
    | error e => rw [hs] at h1; intro h'; exact h1 (by cases h'; rfl)
    | ok q =>
      obtain ⟨b, d'⟩ := q
      cases b with
      | false => simp [Ends]
      | true =>
        have h2 := walk_ends (ns := blocks.takeWhile isD) (fun m _ => hds m) d'
        simp only
        cases hw : walk ds (blocks.takeWhile isD) d' with
        | error e => rw [hw] at h2; intro h'; exact h2 (by cases h'; rfl)
        | ok q =>
          obtain ⟨r, d₂⟩ := q
          cases r with
          | cons x r => simp [Ends]
          | nil =>
            have h3 := walk_ends (fun m hm => h m (hb m hm)) d₂
            simp only
            cases hw' : walk f (blocks.dropWhile isD) d₂ with
            | error e => rw [hw'] at h3; intro h'; exact h3 (by cases h'; rfl)
            | ok q => simp [Ends]

theorem bind_fuel {α β : Type} {x : Except Fault α} {f : α → Except Fault β} (hx : x ≠ .error .fuel) (hf : ∀ a, f a ≠ .error .fuel) :
    x.bind f ≠ .error .fuel := by
  cases x with
  | error e => intro h; exact hx (by cases h; rfl)
  | ok a => exact hf a

theorem parseSignature_fuel (t : Traits) (s : Bytes) : parseSignature t s ≠ .error .fuel := by
  unfold parseSignature
  refine bind_fuel ?_ (fun a => by simp)
  have key : ∀ (c : Bool) (s : Bytes), (if c then Signature.parseAttributes s else .ok ([], s)) ≠ .error .fuel := by
    intro c s
    cases c with
    | true => exact parseAttributes_fuel _
    | false => simp
  exact key _ _

theorem signatureOf_ends (t : Traits) (s r : Bytes) : Ends (signatureOf t s r) := by
  unfold signatureOf
  have := parseSignature_fuel t s
  split
  · exact absurd ‹_› this
  · simp [Ends]
  · simp [Ends]

theorem readSignature_ends (t : Traits) (n : Node) : Ends (readSignature t n) := signatureOf_ends _ _ _

theorem readMember_ends (w : World) (t : Traits) (n : Node) : Ends (readMember w t n) := by
  unfold readMember; split
  · exact signatureOf_ends _ _ _
  · exact readSignature_ends _ _

theorem separated_ends (s : Bytes) : Ends (separated s) := by
  unfold separated
  repeat' split
  all_goals simp [Ends]

theorem blockDescription_ends (w : World) (n : Node) (ss : List TypeSection) : Ends (blockDescription w n ss) := by
  unfold blockDescription
  split
  · simp [Ends]
  · split
    · have := separated_ends
      split
      · intro h; cases h; exact this _ ‹_›
      · simp [Ends]
    · simp [Ends]
  · simp [Ends]

theorem signed_ends {α : Type} {f : Node → Out α → Except Stop (Out α)} (h : ∀ n o, Ends (f n o)) (n : Node) (o : Out α) :
    Ends (signed f n o) := by
  unfold signed
  have := h n o
  split
  · intro h'; cases h'; exact this ‹_›
  · simp [Ends]

theorem take_ends {α β : Type} {r : Reader β} {n : Node} (h : ∀ types, Ends (r n types)) (add : Out α → β → Out α) (o : Out α) :
    Ends (take r add n o) := by
  unfold take
  have := h o.types
  split
  · intro h'; cases h'; exact this ‹_›
  · simp [Ends]

/-- No reader runs for ever on the item. -/
structure AllEnd (R : Readers) (n : Node) : Prop where
  typeSection : ∀ t b types, Ends (R.typeSection t b n types)
  mixin : ∀ types, Ends (R.mixin n types)
  oneOf : ∀ types, Ends (R.oneOf n types)
  value : ∀ types, Ends (R.value n types)
  property : ∀ types, Ends (R.property n types)

theorem typeSectionStep_ends {R : Readers} {n : Node} (h : AllEnd R n) (w : World) (t : SectionType) (o : Out Draft) :
    Ends (typeSectionStep w R t n o) := by
  unfold typeSectionStep
  have hs := separated_ends o.node.value
  simp only
  repeat' split
  all_goals first
    | exact take_ends h.mixin _ _
    | exact take_ends h.oneOf _ _
    | exact take_ends h.value _ _
    | exact take_ends h.property _ _
    | (intro h'; cases h'; exact hs ‹_›)
    | simp [Ends]

theorem oneOfStep_ends {R : Readers} {n : Node} (h : AllEnd R n) (o : Out (List Element)) : Ends (oneOfStep R n o) := by
  unfold oneOfStep
  split
  all_goals first
    | exact take_ends h.mixin _ _
    | exact take_ends h.oneOf _ _
    | exact take_ends h.property _ _
    | exact take_ends (h.typeSection _ _) _ _
    | simp [Ends]

theorem msonStep_ends {R : Readers} {n : Node} (h : AllEnd R n) (w : World) (t : SectionType) (o : Out Body) :
    Ends (msonStep w R t n o) := by
  unfold msonStep
  have hs := blockDescription_ends w n o.node.sections
  simp only
  repeat' split
  all_goals first
    | exact take_ends h.mixin _ _
    | exact take_ends h.oneOf _ _
    | exact take_ends h.value _ _
    | exact take_ends h.property _ _
    | (intro h'; cases h'; exact hs ‹_›)
    | simp [Ends]

theorem memberStep_ends {R : Readers} {n : Node} (h : AllEnd R n) (w : World) (o : Out Body) : Ends (memberStep w R n o) := by
  unfold memberStep
  split
  all_goals first
    | exact msonStep_ends h w _ o
    | exact take_ends (h.typeSection _ _) _ _

theorem Lens.step_ends {α : Type} (l : Lens α) {f : Node → Out Body → Except Stop (Bool × Out Body)} {n : Node}
    (h : ∀ o, Ends (f n o)) (o : Out α) : Ends (l.step f n o) := by
  unfold Lens.step
  have := h { o with node := l.get o.node }
  split
  · intro h'; cases h'; exact this ‹_›
  · simp [Ends]

theorem describe_ends (w : World) (n : Node) (o : Out Body) : Ends (describe w n o) := by
  unfold describe
  have hs := blockDescription_ends w n o.node.sections
  split
  · intro h'; cases h'; exact hs ‹_›
  · simp [Ends]
  · simp [Ends]

theorem typeSectionSign_ends (n : Node) (o : Out Draft) : Ends (typeSectionSign n o) := by
  unfold typeSectionSign
  have := readSignature_ends typeSectionTraits n
  split
  · intro h'; cases h'; exact this ‹_›
  · simp [Ends]

theorem mixinSign_ends (n : Node) (o : Out TypeDef) : Ends (mixinSign n o) := by
  unfold mixinSign
  have := readSignature_ends typeTraits n
  split
  · intro h'; cases h'; exact this ‹_›
  · simp [Ends]

theorem oneOfSign_ends (n : Node) (o : Out (List Element)) : Ends (oneOfSign n o) := by
  unfold oneOfSign
  have := readSignature_ends oneOfTraits n
  split
  · intro h'; cases h'; exact this ‹_›
  · simp [Ends]

theorem valueSignature_ends (w : World) (n : Node) (o : Out ValueNode) : Ends (unplaced (valueSignature w) n o) := by
  unfold unplaced valueSignature
  have := readMember_ends w valueTraits n
  split
  · intro h'; cases h'; exact this ‹_›
  · simp [Ends]

theorem parsePropertyName_fuel (c : Context) (line s : Bytes) : Mson.parsePropertyName c line s ≠ .error .fuel := by
  unfold Mson.parsePropertyName
  split
  · intro h
    simp only at h
    split at h <;>
    · rename_i he
      have hf := fun t s => parseSignature_fuel t s
      generalize hx : parseSignature _ _ = x at h
      cases x with
      | error e => cases h; exact hf _ _ hx
      | ok a => cases h
  · simp

theorem propertySignature_ends (w : World) (n : Node) (o : Out PropertyNode) : Ends (unplaced (propertySignature w) n o) := by
  unfold unplaced propertySignature
  have := readMember_ends w propertyTraits n
  split
  · intro h'; cases h'; exact this ‹_›
  · simp only
    split
    · exact absurd ‹_› (parsePropertyName_fuel _ _ _)
    · simp [Ends]
    · simp [Ends]

theorem noDescription_ends {σ : Type} (n : Node) (d : σ) : Ends (noDescription n d) := by simp [noDescription, Ends]

theorem Lens.read_ends {α : Type} (l : Lens α) {w : World} {R : Readers} {sg : Node → PD (Out α) → Except Stop (Out α)}
    {fin : Out α → Out α} {n : Node} (hsg : ∀ m o, Ends (unplaced sg m o)) (h : ∀ c ∈ n.children, AllEnd R c) (o : Out α) :
    Ends (l.read w R sg fin n o) :=
  itemResult_ends (signed_ends hsg) (fun m => l.step_ends (describe_ends w m)) (fun m hm => l.step_ends (memberStep_ends (h m hm) w)) o

theorem layer_ends (w : World) {R : Readers} {n : Node} (h : ∀ c ∈ n.children, AllEnd R c) : AllEnd (layer w R) n where
  typeSection t b types := itemResult_ends typeSectionSign_ends noDescription_ends
    (fun m hm => typeSectionStep_ends (h m hm) w t) _
  mixin types := itemResult_ends (signed_ends mixinSign_ends) noDescription_ends (fun m _ o => by simp [mixinStep, Ends]) _
  oneOf types := itemResult_ends (signed_ends oneOfSign_ends) noDescription_ends (fun m hm => oneOfStep_ends (h m hm)) _
  value types := valueLens.read_ends (valueSignature_ends w) h _
  property types := propertyLens.read_ends (propertySignature_ends w) h _

theorem readers_end (w : World) : ∀ d n, depth n ≤ d → AllEnd (readers w d) n
  | 0, n, h => absurd (depth_pos n) (by omega)
  | d + 1, n, h => by
    rw [readers_succ]
    refine layer_ends w fun c hc => readers_end w d c ?_
    have := depth_mem hc
    rw [depth_eq] at h
    omega

theorem meaning_ends (w : World) (n : Node) : AllEnd (meaning w) n :=
  have h := readers_end w (depth n) n (Nat.le_refl _)
  ⟨h.typeSection, h.mixin, h.oneOf, h.value, h.property⟩

end Verif.MsonParser
