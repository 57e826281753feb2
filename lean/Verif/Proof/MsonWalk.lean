import Verif.Proof.MsonSteps

/-! # All the blocks of a member -/

namespace Verif.MsonParser
open Verif Verif.Text Verif.Section Verif.Recognition Verif.Spec Verif.Spec.MsonParser Verif.Props
open Verif.Mson (Base TypeDef Context)
open Verif.DataStructure (Klass Element)

/-! ## What steps keep -/

/-- The step keeps `I`. -/
def Keeps {σ : Type} (I : σ → Prop) (f : Node → σ → Except Stop (Bool × σ)) (ns : List Node) : Prop :=
  ∀ n ∈ ns, ∀ d, I d → ∀ c d', f n d = .ok (c, d') → I d'

theorem walk_keeps {σ : Type} {I : σ → Prop} {f : Node → σ → Except Stop (Bool × σ)} :
    ∀ {ns : List Node}, Keeps I f ns → ∀ {d r d'}, I d → walk f ns d = .ok (r, d') → I d'
  | [], _, d, r, d', hd, h => by rw [walk] at h; cases h; exact hd
  | n :: ns, hk, d, r, d', hd, h => by
    rw [walk] at h
    split at h
    · cases h
    · exact walk_keeps (fun m hm => hk m (List.mem_cons_of_mem _ hm)) (hk n List.mem_cons_self d hd _ _ ‹_›) h
    · cases h; exact hk n List.mem_cons_self d hd _ _ ‹_›

theorem read_sub {n m : Node} (h : m ∈ Payload.read n) : m ∈ n.children := List.mem_of_mem_drop h

theorem itemResult_keeps {σ : Type} {I : σ → Prop} {sg ds f : Node → σ → Except Stop (Bool × σ)} {isD : Node → Bool} {fin : σ → σ}
    {n : Node} (hsg : Keeps I sg n.children) (hds : Keeps I ds n.children) (hf : Keeps I f n.children) (hfin : ∀ d, I d → I (fin d))
    {d d' : σ} (hd : I d) (h : itemResult sg isD ds f fin n d = .ok d') : I d' := by
  unfold itemResult at h
  split at h
  case isFalse => cases h
  split at h
  · cases h
  rename_i sig blocks hr
  have hsub : ∀ m ∈ sig :: blocks, m ∈ n.children := fun m hm => read_sub (hr ▸ hm)
  unfold listResult at h
  split at h
  · cases h
  · cases h; exact hsg sig (hsub _ List.mem_cons_self) d hd _ _ ‹_›
  · rename_i d₁ h1
    have i1 := hsg sig (hsub _ List.mem_cons_self) d hd _ _ h1
    split at h
    · cases h
    · cases h
      exact walk_keeps (fun m hm => hds m (hsub m (List.mem_cons_of_mem _ ((List.takeWhile_sublist _).subset hm)))) i1 ‹_›
    · rename_i d₂ h2
      have i2 := walk_keeps (fun m hm => hds m (hsub m (List.mem_cons_of_mem _ ((List.takeWhile_sublist _).subset hm)))) i1 h2
      split at h
      · cases h
      · cases h
        exact hfin _ (walk_keeps (fun m hm => hf m (hsub m (List.mem_cons_of_mem _ ((List.dropWhile_sublist _).subset hm)))) i2 ‹_›)

/-! ## Type sections -/

theorem final_keeps (sig : Signature.Signature) (o : Out Draft) (h : o.node.klass = .undefined) :
    (typeSectionFinal sig o).1.node.base = o.node.base ∧
    ((typeSectionFinal sig o).1.node.klass = .undefined ∨ (typeSectionFinal sig o).1.node.klass = .default ∨
     (typeSectionFinal sig o).1.node.klass = .sample ∨ (typeSectionFinal sig o).1.node.klass = .members) := by
  unfold typeSectionFinal
  simp only
  repeat' split
  all_goals simp [h, Out.warn]

theorem typeSectionStep_keeps (w : World) (R : Readers) (t : SectionType) (n : Node) (o : Out Draft) (c : Bool) (o' : Out Draft)
    (h : typeSectionStep w R t n o = .ok (c, o')) : o'.node.base = o.node.base ∧ o'.node.klass = o.node.klass := by
  have key : ∀ {β : Type} (r : Reader β) (g : β → Element), take r (fun o m => Out.push o (g m)) n o = .ok (c, o') →
      o'.node.base = o.node.base ∧ o'.node.klass = o.node.klass := by
    intro β r g h
    rw [take_iff] at h
    obtain ⟨_, q, _, rfl⟩ := h
    exact ⟨rfl, rfl⟩
  unfold typeSectionStep at h
  simp only at h
  repeat' split at h
  all_goals first
    | (cases h; exact ⟨rfl, rfl⟩)
    | exact key _ Element.mixin h
    | exact key _ Element.oneOf h
    | exact key _ PropertyNode.made h
    | exact key _ (fun m => Element.value (ValueNode.made m)) h
    | cases h

/-- What a type section can be. -/
theorem part_klass {w : World} {t : SectionType} {b : Base} {n : Node} {types : Context} {o : Out Draft} (h : ReadPart w t b n types o) :
    o.node.base = b ∧ (o.node.klass = .undefined ∨ o.node.klass = .default ∨ o.node.klass = .sample ∨ o.node.klass = .members) := by
  rw [readPart_iff, (meaning_layer w n).typeSection] at h
  simp only [layer] at h
  unfold itemResult at h
  split at h
  case isFalse => cases h
  split at h
  · cases h
  rename_i sig blocks hr
  unfold listResult at h
  have hfin : ∀ {c d}, typeSectionSign sig ⟨{ base := b }, types, []⟩ = .ok (c, d) → d.node.base = b ∧ (d.node.klass = .undefined ∨
      d.node.klass = .default ∨ d.node.klass = .sample ∨ d.node.klass = .members) := by
    intro c d hd
    unfold typeSectionSign at hd
    split at hd
    · cases hd
    · cases hd; exact final_keeps _ _ rfl
  split at h
  · cases h
  · cases h; exact hfin ‹_›
  · rename_i d₁ h1
    have e1 : blocks.takeWhile never = [] := by cases blocks <;> rfl
    rw [e1] at h
    simp only [walk] at h
    split at h
    · cases h
    · rename_i r d₂ h2
      cases h
      refine walk_keeps (I := fun d : Out Draft => d.node.base = b ∧ (d.node.klass = .undefined ∨
        d.node.klass = .default ∨ d.node.klass = .sample ∨ d.node.klass = .members)) ?_ (hfin h1) h2
      intro m _ d hd c d' hx
      obtain ⟨e1, e2⟩ := typeSectionStep_keeps _ _ _ _ _ _ _ hx
      rw [e1, e2]; exact hd

/-! ## Descriptions -/

theorem source_iff {w : World} {n : Node} {s : Bytes} : Source w n s ↔ s = trim (sourceOf w n) := by
  unfold Source sourceOf
  exact ⟨fun h => (trim_unique h).symm, fun h => h ▸ trim_spec _⟩

theorem follows_iff {d s d' : Bytes} : Follows d s d' ↔ ∃ x, separated d = .ok x ∧ d' = x ++ s := by
  unfold separated
  constructor
  · intro h
    cases h with
    | first => exact ⟨[], by simp, rfl⟩
    | next h0 h1 =>
      have he : d.isEmpty = false := by cases d with
        | nil => exact absurd rfl h0
        | cons => rfl
      cases ht : twoNewLines d with
      | none => rcases Payload.twoNewLines_none.mp ht with h | h <;> contradiction
      | some r =>
        refine ⟨r, by simp [he], ?_⟩
        rw [Payload.twoNewLines_closed ht]
  · rintro ⟨x, hx, rfl⟩
    by_cases h0 : d = []
    · subst h0; simp at hx; subst hx; exact .first
    · have he : d.isEmpty = false := by cases d with
        | nil => exact absurd rfl h0
        | cons => rfl
      rw [he] at hx
      cases ht : twoNewLines d with
      | none => rw [ht] at hx; cases hx
      | some r =>
        rw [ht] at hx
        cases hx
        rw [Payload.twoNewLines_closed ht]
        refine .next h0 ?_
        rintro rfl
        rw [Payload.twoNewLines_none.mpr (.inr rfl)] at ht; cases ht

theorem block_description (w : World) (n : Node) (d : Bytes) {r : Option (List TypeSection)} :
    blockDescription w n [description d] = .ok r ↔ ∃ s d', Source w n s ∧ Follows d s d' ∧ r = some [description d'] := by
  have e : blockDescription w n [description d] = match separated d with
      | .error e => .error e
      | .ok x => .ok (some [sectionOf .description (x ++ trim (sourceOf w n)) [] []]) := rfl
  rw [e]
  simp only [source_iff, follows_iff]
  cases separated d with
  | error e => simp
  | ok x =>
    constructor
    · intro h; cases h; exact ⟨_, _, rfl, ⟨x, rfl, rfl⟩, rfl⟩
    · rintro ⟨_, _, rfl, ⟨y, hy, rfl⟩, rfl⟩; cases hy; rfl

/-! ## All blocks -/

theorem neat_section {ss : List TypeSection} (h : Neat ss) {d : Draft} (hk : d.klass ≠ .description) :
    Neat (ss ++ [d.made]) ∧ Open (ss ++ [d.made]) := by
  refine ⟨?_, ?_⟩
  · intro x hx
    rcases List.mem_append.mp hx with hx | hx
    · exact h x hx
    · exact ⟨_, _, _, _, List.mem_singleton.mp hx⟩
  · intro x hx
    rw [List.getLast?_concat] at hx
    cases hx; simpa [Draft.made, sectionOf, DataStructure.Section.klass] using hk

/-- There is a description alone, or the last section is none. -/
def Apt (ss : List TypeSection) : Prop := Neat ss ∧ (Open ss ∨ ∃ d, ss = [description d])

theorem apt_nil : Apt [] := ⟨by simp [Neat], .inl (by simp [Open])⟩

theorem apt_description (d : Bytes) : Apt [description d] :=
  ⟨fun s hs => ⟨_, _, _, _, List.mem_singleton.mp hs⟩, .inr ⟨d, rfl⟩⟩

theorem not_open (d : Bytes) : ¬ Open [description d] := fun h => h _ rfl rfl

theorem adds_apt {w : World} {b : Base} {n : Node} {types types' : Context} {p : Piece} {ws : List Warning} {ss ss' : List TypeSection}
    (ha : Adds w b n types p types' ws) (hj : Joins ss p ss') (hn : Apt ss) : Apt ss' := by
  have hm : ∀ {fs}, Joins ss (.members fs) ss' → Apt ss' := by
    intro fs h; rw [(joins_members hn.1).mp h]; exact ⟨(neat_joined hn.1 fs).1, .inl (neat_joined hn.1 fs).2⟩
  cases ha with
  | property => exact hm hj
  | value => exact hm hj
  | include_ => exact hm hj
  | mismatch => exact hm hj
  | oneOf => exact hm hj
  | text => exact hm hj
  | ignored => rw [joins_nothing.mp hj]; exact hn
  | part _ ho =>
    rw [joins_section.mp hj]
    have : Neat _ ∧ Open _ := neat_section hn.1 (by
      rcases (part_klass ho).2 with h | h | h | h <;> rw [h] <;> decide)
    exact ⟨this.1, .inl this.2⟩

theorem step_describe {w : World} {R : Readers} {n : Node} (hh : n.kind ≠ .header) (hp : ¬ ∃ t, IsPart n t) (d : Bytes) (b : Base)
    (types : Context) : memberStep w R n ⟨⟨[description d], b⟩, types, []⟩ =
      match blockDescription w n [description d] with
      | .error e => .error e
      | .ok none => .ok (false, ⟨⟨[description d], b⟩, types, []⟩)
      | .ok (some ss) => .ok (true, ⟨⟨ss, b⟩, types, []⟩) := by
  have hx : ∀ t, msonStep w R t n ⟨⟨[description d], b⟩, types, []⟩ =
      match blockDescription w n [description d] with
      | .error e => .error e
      | .ok none => .ok (false, ⟨⟨[description d], b⟩, types, []⟩)
      | .ok (some ss) => .ok (true, ⟨⟨ss, b⟩, types, []⟩) := by
    intro t
    unfold msonStep
    rw [if_neg hh, if_pos (by rfl)]
    cases blockDescription w n [description d] with
    | error e => rfl
    | ok r => cases r <;> rfl
  cases role n with
  | header h => exact absurd h hh
  | part h => exact absurd ⟨_, h⟩ hp
  | text h => rw [member_mson w R (member_text h)]; exact hx _
  | plain h => rw [member_mson w R (member_plain h)]; exact hx _
  | include_ h => rw [member_mixin w R (member_include h)]; exact hx _
  | oneOf h => rw [member_choice w R (member_oneOf h)]; exact hx _

theorem halts_nothing {b : Base} {n : Node} {p : Piece} {ws : List Warning} (h : n.kind = .header) (hp : Halts b n p ws) :
    p = .nothing ∧ ws = [] ∧ ¬ IsHeading n := by
  cases hp with
  | header _ h' => exact ⟨rfl, rfl, h'⟩
  | oneOf hp => exact absurd h (oneOf_not hp).2.2.2.2
  | scalar hp =>
    rcases hp with hp | hp
    · exact absurd h (plain_not hp).2.2.2.2
    · exact absurd h hp.1

theorem header_base {b b' : Base} {n : Node} (h : n.kind = .header) (h1 : n.kind = .header ∧ b' = b ∨ Settles b n b') : b' = b := by
  rcases h1 with h1 | h1
  · exact h1.2
  · cases h1 with
    | known => rfl
    | object hb h1 =>
      rcases h1 with h1 | h1 | h1 | h1
      · exact absurd h (plain_not h1).2.2.2.2
      · exact absurd h (include_not h1).2.2.2.2
      · exact absurd h (oneOf_not h1).2.2.2.2
      · exact absurd h (part_not (.properties h1)).2.2.2.2
    | sample hb h1 => exact absurd h (part_not (.sample h1)).2.2.2.2
    | items hb h1 => exact hb.symm
    | text hb h1 => exact hb.symm

theorem blocks_iff {w : World} : ∀ {ns : List Node} {st st' : State} {ws : List Warning} {rest : List Node}, Apt st.sections →
    (walk (memberStep w (meaning w)) ns ⟨⟨st.sections, st.base⟩, st.types, []⟩ = .ok (rest, ⟨⟨st'.sections, st'.base⟩, st'.types, ws⟩) ↔
      Blocks w st ns st' ws rest)
  | [], st, st', ws, rest, hn => by
    rw [walk]
    constructor
    · intro h
      obtain ⟨ss, b, t⟩ := st
      obtain ⟨ss', b', t'⟩ := st'
      cases h
      exact .done
    · intro h; cases h; rfl
  | n :: ns, ⟨ss, b, types⟩, ⟨ss', b', types'⟩, ws, rest, hn => by
    simp only at hn ⊢
    rw [walk]
    have ih : ∀ {ss₁ b₁ types₁ ss₂ b₂ types₂ v r}, Apt ss₁ →
        (walk (memberStep w (meaning w)) ns ⟨⟨ss₁, b₁⟩, types₁, []⟩ = .ok (r, ⟨⟨ss₂, b₂⟩, types₂, v⟩) ↔
          Blocks w ⟨ss₁, b₁, types₁⟩ ns ⟨ss₂, b₂, types₂⟩ v r) := fun {ss₁ b₁ types₁ ss₂ b₂ types₂ v r} h =>
      blocks_iff (st := ⟨ss₁, b₁, types₁⟩) (st' := ⟨ss₂, b₂, types₂⟩) h
    by_cases hs : Open ss ∨ ∃ t, IsPart n t
    · constructor
      · intro h
        split at h
        · cases h
        · rename_i d' hx
          obtain ⟨⟨ss₁, b₁⟩, types₁, ws₁⟩ := d'
          obtain ⟨p, h1, ha, hj⟩ := (step_true hn.1 hs).mp hx
          have hn' := adds_apt ha hj hn
          rw [walk_frame (memberStep_frame w (meaning w))] at h
          cases hy : walk (memberStep w (meaning w)) ns ⟨⟨ss₁, b₁⟩, types₁, []⟩ with
          | error e => rw [hy] at h; cases h
          | ok q =>
            obtain ⟨r, ⟨ss₂, b₂⟩, types₂, ws₂⟩ := q
            rw [hy] at h
            simp only [afterW, after, Except.ok.injEq, Prod.mk.injEq, Out.mk.injEq, Body.mk.injEq] at h
            obtain ⟨rfl, ⟨rfl, rfl⟩, rfl, rfl⟩ := h
            exact .next hs h1 ha hj ((ih hn').mp hy)
        · rename_i d' hx
          obtain ⟨⟨ss₁, b₁⟩, types₁, ws₁⟩ := d'
          obtain ⟨rfl, p, h1, ha, hj⟩ := (step_false hn.1 hs).mp hx
          cases h
          refine .halt ?_ h1 ha hj
          rcases hs with hs | ⟨t, ht⟩
          · exact .inl hs
          · cases ha with
            | header h => exact .inr h
            | oneOf h => exact absurd h (part_not ht).2.2.1
            | scalar h => rcases h with h | h
                          · exact absurd h (part_not ht).1
                          · exact absurd h (part_not ht).2.2.2.1
      · intro h
        cases h with
        | next _ h1 ha hj hb =>
          have hn' := adds_apt ha hj hn
          rw [(step_true hn.1 hs).mpr ⟨_, h1, ha, hj⟩]
          simp only
          rw [walk_frame (memberStep_frame w (meaning w)), (ih hn').mpr hb]
          rfl
        | describe hh hp =>
          rcases hs with hs | hs
          · exact absurd hs (not_open _)
          · exact absurd hs hp
        | halt _ h1 ha hj =>
          rw [(step_false hn.1 hs).mpr ⟨rfl, _, h1, ha, hj⟩]
    · obtain ⟨hs1, hs2⟩ := not_or.mp hs
      obtain ⟨d, rfl⟩ := hn.2.resolve_left hs1
      by_cases hh : n.kind = .header
      · constructor
        · intro h
          by_cases hg : IsHeading n
          · rw [step_heading w _ hg (read_heading w hh)] at h; cases h
          · rw [step_header w _ hh hg] at h
            cases h
            exact .halt (.inr hh) (.inl ⟨hh, rfl⟩) (.header hh hg) .nothing
        · intro h
          cases h with
          | next h0 => exact absurd h0 hs
          | describe h0 => exact absurd hh h0
          | halt _ h1 ha hj =>
            obtain ⟨rfl, rfl, hg⟩ := halts_nothing hh ha
            rw [header_base hh h1, joins_nothing.mp hj, step_header w _ hh hg]
      · rw [step_describe hh hs2]
        constructor
        · intro h
          cases hb : blockDescription w n [description d] with
          | error e => rw [hb] at h; cases h
          | ok r =>
            obtain ⟨s, d', h1, h2, rfl⟩ := (block_description w n d).mp hb
            rw [hb] at h
            exact .describe hh hs2 h1 h2 ((ih (apt_description d')).mp h)
        · intro h
          cases h with
          | next h0 => exact absurd h0 hs
          | describe _ _ h1 h2 hb =>
            rw [(block_description w n _).mpr ⟨_, _, h1, h2, rfl⟩]
            exact (ih (apt_description _)).mpr hb
          | halt h0 =>
            rcases h0 with h0 | h0
            · exact absurd h0 hs1
            · exact absurd h0 hh

end Verif.MsonParser
