import Verif.Proof.MsonWalk
import Verif.Proof.MsonAttributes

/-! # All that is under the first line of a member -/

namespace Verif.MsonParser
open Verif Verif.Text Verif.Section Verif.Recognition Verif.Spec Verif.Spec.MsonParser Verif.Props
open Verif.Mson (Base TypeDef Context)
open Verif.DataStructure (Klass Element)

theorem description_iff (n : Node) : memberDescription n = true ↔ IsText n := by
  unfold memberDescription
  constructor
  · intro h
    split at h
    · cases h
    · rename_i h1
      split at h
      · rename_i h2; exact ⟨fun h => h1 (.inr h), h2⟩
      · simp [Recognise.isDescription, memberNested_ne] at h
  · intro h
    rw [if_neg (by simp [member_text h, h.1]), if_pos h.2]

/-- Description blocks, then the others. -/
def content (w : World) (blocks : List Node) (o : Out Body) : Except Stop (List Node × Out Body) :=
  match walk (describe w) (blocks.takeWhile memberDescription) o with
  | .error e => .error e
  | .ok (r :: rs, d) => .ok (r :: rs, d)
  | .ok ([], d) => walk (memberStep w (meaning w)) (blocks.dropWhile memberDescription) d

theorem describe_step {w : World} {R : Readers} {n : Node} (h : IsText n) (d : Bytes) (b : Base) (types : Context) :
    describe w n ⟨⟨[description d], b⟩, types, []⟩ = memberStep w R n ⟨⟨[description d], b⟩, types, []⟩ := by
  rw [step_describe h.1 (text_not_part h)]
  unfold describe
  cases blockDescription w n [description d] with
  | error e => rfl
  | ok r => cases r <;> rfl

theorem content_description (w : World) : ∀ (ns : List Node) (d : Bytes) (b : Base) (types : Context),
    content w ns ⟨⟨[description d], b⟩, types, []⟩ = walk (memberStep w (meaning w)) ns ⟨⟨[description d], b⟩, types, []⟩
  | [], d, b, types => rfl
  | n :: ns, d, b, types => by
    by_cases h : IsText n
    · have hd := (description_iff n).mpr h
      unfold content
      rw [List.takeWhile_cons_of_pos hd, List.dropWhile_cons_of_pos hd, walk, walk, describe_step (R := meaning w) h]
      rw [step_describe h.1 (text_not_part h)]
      cases hb : blockDescription w n [description d] with
      | error e => rfl
      | ok r =>
        obtain ⟨s, d', h1, h2, rfl⟩ := (block_description w n d).mp hb
        have := content_description w ns d' b types
        unfold content at this
        exact this
    · have hd : ¬ memberDescription n = true := fun h' => h ((description_iff n).mp h')
      unfold content
      rw [List.takeWhile_cons_of_neg hd, List.dropWhile_cons_of_neg hd]
      rfl

theorem content_iff {w : World} {ns rest : List Node} {st st' : State} {ws : List Warning}
    (h : st.sections = [] ∨ ∃ d, st.sections = [description d]) :
    content w ns ⟨⟨st.sections, st.base⟩, st.types, []⟩ = .ok (rest, ⟨⟨st'.sections, st'.base⟩, st'.types, ws⟩) ↔
      Content w st ns st' ws rest := by
  obtain ⟨ss, b, types⟩ := st
  simp only at h ⊢
  rcases h with rfl | ⟨d, rfl⟩
  · by_cases ht : ∃ n ns', ns = n :: ns' ∧ IsText n
    · obtain ⟨n, ns, rfl, ht⟩ := ht
      have hd := (description_iff n).mpr ht
      have e : content w (n :: ns) ⟨⟨[], b⟩, types, []⟩ = content w ns ⟨⟨[description (trim (sourceOf w n))], b⟩, types, []⟩ := by
        unfold content
        rw [List.takeWhile_cons_of_pos hd, List.dropWhile_cons_of_pos hd, walk]
        rfl
      rw [e, content_description, blocks_iff (st := ⟨[description (trim (sourceOf w n))], b, types⟩) (apt_description _)]
      constructor
      · intro h; exact .text ht (source_iff.mpr rfl) h
      · intro h
        cases h with
        | blocks h0 =>
          rcases h0 with h0 | h0
          · exact absurd rfl h0
          · exact absurd ht (h0 n rfl)
        | text _ hs hb => rw [source_iff.mp hs] at hb; exact hb
    · have e : content w ns ⟨⟨[], b⟩, types, []⟩ = walk (memberStep w (meaning w)) ns ⟨⟨[], b⟩, types, []⟩ := by
        unfold content
        cases ns with
        | nil => rfl
        | cons n ns =>
          have hd : ¬ memberDescription n = true := fun h' => ht ⟨n, ns, rfl, (description_iff n).mp h'⟩
          rw [List.takeWhile_cons_of_neg hd, List.dropWhile_cons_of_neg hd]
          rfl
      rw [e, blocks_iff (st := ⟨[], b, types⟩) apt_nil]
      constructor
      · intro h
        refine .blocks (.inr ?_) h
        intro n hn hx
        cases ns with
        | nil => cases hn
        | cons m ns => cases hn; exact ht ⟨_, _, rfl, hx⟩
      · intro h
        cases h with
        | blocks _ hb => exact hb
        | text h0 => exact absurd ⟨_, _, rfl, h0⟩ ht
  · rw [content_description, blocks_iff (st := ⟨[description d], b, types⟩) (apt_description _)]
    constructor
    · intro h; exact .blocks (.inl (by simp)) h
    · intro h
      cases h with
      | blocks _ hb => exact hb

theorem describe_walk {w : World} : ∀ {ns : List Node} {ss : List TypeSection} {b : Base} {types : Context} {r : List Node} {o : Out Body},
    (ss = [] ∨ ∃ d, ss = [description d]) → walk (describe w) ns ⟨⟨ss, b⟩, types, []⟩ = .ok (r, o) → r = [] ∧ o.warnings = []
  | [], _, _, _, r, o, _, h => by rw [walk] at h; cases h; exact ⟨rfl, rfl⟩
  | n :: ns, ss, b, types, r, o, hs, h => by
    rw [walk] at h
    have hd : ∃ d', describe w n ⟨⟨ss, b⟩, types, []⟩ = .ok (true, ⟨⟨[description d'], b⟩, types, []⟩) ∨
        ∃ e, describe w n ⟨⟨ss, b⟩, types, []⟩ = .error e := by
      rcases hs with rfl | ⟨d, rfl⟩
      · exact ⟨_, .inl rfl⟩
      · unfold describe
        cases hb : blockDescription w n [description d] with
        | error e => exact ⟨[], .inr ⟨e, by simp⟩⟩
        | ok q =>
          obtain ⟨s, d', h1, h2, rfl⟩ := (block_description w n d).mp hb
          exact ⟨d', .inl (by simp)⟩
    obtain ⟨d', hd | ⟨e, hd⟩⟩ := hd
    · rw [hd] at h; exact describe_walk (.inr ⟨_, rfl⟩) h
    · rw [hd] at h; cases h

/-! ## Through a lens -/

/-- A lens that is one. -/
structure Lens.Lawful {α : Type} (l : Lens α) : Prop where
  set_get : ∀ a, l.set (l.get a) a = a
  get_set : ∀ b a, l.get (l.set b a) = b
  set_set : ∀ b c a, l.set b (l.set c a) = l.set b a

theorem walk_lens {α : Type} {l : Lens α} (hl : l.Lawful) {f : Node → Out Body → Except Stop (Bool × Out Body)} : ∀ (ns : List Node) (o : Out α),
    walk (l.step f) ns o = match walk f ns { o with node := l.get o.node } with
      | .error e => .error e
      | .ok (r, o') => .ok (r, { o' with node := l.set o'.node o.node })
  | [], o => by simp [walk, hl.set_get]
  | n :: ns, o => by
    rw [walk, walk]
    unfold Lens.step
    cases f n { o with node := l.get o.node } with
    | error e => rfl
    | ok q =>
      obtain ⟨c, o'⟩ := q
      cases c with
      | false => rfl
      | true =>
        simp only
        have := walk_lens hl (f := f) ns { o' with node := l.set o'.node o.node }
        simp only [hl.get_set, hl.set_set] at this
        rw [show l.step f = (fun n o => match f n { o with node := l.get o.node } with
          | .error e => .error e
          | .ok (b, o') => .ok (b, { o' with node := l.set o'.node o.node })) from rfl] at this
        exact this

/-- What is made of a member. -/
theorem Lens.read_iff {α : Type} {l : Lens α} (hl : l.Lawful) {w : World} {sg : Node → PD (Out α) → Except Stop (Out α)}
    {fin : Out α → Out α} (hfin : FrameF fin)
    (hsg : ∀ n o o', sg n ⟨[], o⟩ = .ok o' → (l.get o'.node).sections = [] ∨ ∃ d, (l.get o'.node).sections = [Spec.MsonParser.description d])
    {n : Node} {o r : Out α} : l.read w (meaning w) sg fin n o = .ok r ↔
      ∃ sig blocks o₁ st ws rest, Spec.Payload.Parts n sig blocks ∧ sg sig ⟨[], o⟩ = .ok o₁ ∧
        Content w ⟨(l.get o₁.node).sections, (l.get o₁.node).base, o₁.types⟩ blocks st ws rest ∧
        r = fin ⟨l.set ⟨st.sections, st.base⟩ o₁.node, st.types, o₁.warnings ++ ws⟩ := by
  have key : ∀ sig blocks, listResult (signed (unplaced sg)) memberDescription (l.step (describe w)) (l.step (memberStep w (meaning w)))
      fin sig blocks o = .ok r ↔ ∃ o₁ st ws rest, sg sig ⟨[], o⟩ = .ok o₁ ∧
        Content w ⟨(l.get o₁.node).sections, (l.get o₁.node).base, o₁.types⟩ blocks st ws rest ∧
        r = fin ⟨l.set ⟨st.sections, st.base⟩ o₁.node, st.types, o₁.warnings ++ ws⟩ := by
    intro sig blocks
    unfold listResult signed unplaced
    cases h1 : sg sig ⟨[], o⟩ with
    | error e => simp
    | ok o₁ =>
      have hs := hsg _ _ _ h1
      obtain ⟨a, types, ws₁⟩ := o₁
      simp only at hs ⊢
      rw [walk_lens hl]
      simp only
      rw [walk_frame (describe_frame w)]
      have hci := fun st' ws rest => content_iff (w := w) (ns := blocks) (rest := rest)
        (st := ⟨(l.get a).sections, (l.get a).base, types⟩) (st' := st') (ws := ws) hs
      unfold content at hci
      simp only at hci
      cases h2 : walk (describe w) (blocks.takeWhile memberDescription) ⟨⟨(l.get a).sections, (l.get a).base⟩, types, []⟩ with
      | error e =>
        rw [h2] at hci
        simp only [afterW]
        constructor
        · intro h; cases h
        · rintro ⟨o₁, st, ws, rest, ho, hc, rfl⟩
          cases ho
          have := (hci st ws rest).mpr hc
          cases this
      | ok q =>
        obtain ⟨r', o₂⟩ := q
        obtain ⟨hr, hw2⟩ := describe_walk hs h2
        subst hr
        obtain ⟨⟨ss₂, b₂⟩, types₂, ws₂⟩ := o₂
        rw [h2] at hci
        simp only [afterW, after] at hci ⊢
        rw [walk_lens hl]
        simp only [hl.get_set, hl.set_set]
        rw [walk_frame (memberStep_frame w (meaning w))]
        simp only at hw2
        subst hw2
        cases h3 : walk (memberStep w (meaning w)) (blocks.dropWhile memberDescription) ⟨⟨ss₂, b₂⟩, types₂, []⟩ with
        | error e =>
          rw [h3] at hci
          simp only [afterW]
          constructor
          · intro h; cases h
          · rintro ⟨o₁, st, ws, rest, ho, hc, rfl⟩
            cases ho
            have := (hci st ws rest).mpr hc
            cases this
        | ok q =>
          obtain ⟨rest, ⟨ss₃, b₃⟩, types₃, ws₃⟩ := q
          rw [h3] at hci
          simp only [afterW, after, List.append_nil]
          constructor
          · intro h
            cases h
            exact ⟨_, ⟨ss₃, b₃, types₃⟩, ws₃, rest, rfl, (hci ⟨ss₃, b₃, types₃⟩ ws₃ rest).mp rfl, rfl⟩
          · rintro ⟨o₁, ⟨ss, b, t⟩, ws, rest, ho, hc, rfl⟩
            cases ho
            have := (hci _ ws rest).mpr hc
            cases this
            rfl
  unfold Lens.read itemResult
  constructor
  · intro h
    split at h
    · rename_i hk
      split at h
      · cases h
      · rename_i sig blocks hr
        obtain ⟨o₁, st, ws, rest, h1, h2, h3⟩ := (key sig blocks).mp h
        exact ⟨sig, blocks, o₁, st, ws, rest, Payload.parts_iff.mpr ⟨hk, hr⟩, h1, h2, h3⟩
    · cases h
  · rintro ⟨sig, blocks, o₁, st, ws, rest, hp, h1, h2, h3⟩
    obtain ⟨hk, hr⟩ := Payload.parts_iff.mp hp
    rw [if_pos hk, hr]
    exact (key sig blocks).mpr ⟨o₁, st, ws, rest, h1, h2, h3⟩

end Verif.MsonParser
