import Verif.Proof.Markdown
/-!
# C59–C61: the Markdown tree
-/
namespace Verif.Props
open Verif Verif.ByteBuffer Verif.Spec Verif.Spec.Markdown Verif.Markdown

/-! ## C59 -/

/-- C59: whatever the source, a well-bracketed sequence of callbacks gives exactly the tree it describes, without exception: the same
    blocks in the same order and nesting, with their texts, data and source maps, below a root that covers the source. -/
theorem C59_tree (src : Bytes) (es : List Event) (ts : List Tree) (h : Describes es ts)
    (hs : ∀ m, Event.parsed m ∈ es → Sane src.length m) :
    ∃ n, parse src es = .ok n ∧ n.kind = .root ∧ n.text = [] ∧ n.sourceMap = [⟨0, src.length⟩] ∧ RendersAll src none ts n.children := by
  obtain ⟨ns, hr, hn⟩ := run_described src h hs (.mk .root [] 0 [⟨0, src.length⟩] []) [] rfl
  exact ⟨.mk .root [] 0 [⟨0, src.length⟩] ns, by rw [parse, hr]; rfl, rfl, rfl, rfl, hn⟩

theorem open_item (k : Kind) (hk : k ≠ .item) (st : List Kind) (t : Bytes) (f : Int) (r : List Event) :
    openBlocks (k :: st) (.item t f :: r) = none := by
  cases k <;> first | exact absurd rfl hk | rfl

theorem open_quote (k : Kind) (hk : k ≠ .quote) (st : List Kind) (t : Bytes) (r : List Event) :
    openBlocks (k :: st) (.quote t :: r) = none := by
  cases k <;> first | exact absurd rfl hk | rfl

set_option maxHeartbeats 1000000 in
theorem run_open (src : Bytes) (es : List Event) (hs : Event.parsed [] ∉ es) : ∀ (s : State),
    (∀ a ∈ (s.working :: s.ancestors).dropLast, a.kind = .item ∨ a.kind = .quote) →
    (∀ r, (s.working :: s.ancestors).getLast? = some r → r.kind = .root) →
    (openBlocks (((s.working :: s.ancestors).dropLast).map (·.kind)) es = none → run src s es = .error .mismatch) ∧
    (∀ st, openBlocks (((s.working :: s.ancestors).dropLast).map (·.kind)) es = some st →
      ∃ s', run src s es = .ok s' ∧ ((s'.working :: s'.ancestors).dropLast).map (·.kind) = st ∧
        ∀ r, (s'.working :: s'.ancestors).getLast? = some r → r.kind = .root) := by
  induction es with
  | nil =>
    intro s _ hr
    simp only [openBlocks, reduceCtorEq, false_implies, true_and, Option.some.injEq]
    rintro st rfl
    exact ⟨s, rfl, rfl, hr⟩
  | cons e r ih =>
    have ih := ih (fun h => hs (by simp [h]))
    intro s hk hr
    -- a step that keeps the kind of the working node and the ancestors
    have same : ∀ s' : State, step src s e = .ok s' → s'.working.kind = s.working.kind → s'.ancestors = s.ancestors →
        (∀ st, openBlocks st (e :: r) = openBlocks st r) →
        (openBlocks (((s.working :: s.ancestors).dropLast).map (·.kind)) (e :: r) = none → run src s (e :: r) = .error .mismatch) ∧
        (∀ st, openBlocks (((s.working :: s.ancestors).dropLast).map (·.kind)) (e :: r) = some st →
          ∃ s', run src s (e :: r) = .ok s' ∧ ((s'.working :: s'.ancestors).dropLast).map (·.kind) = st ∧
            ∀ r, (s'.working :: s'.ancestors).getLast? = some r → r.kind = .root) := by
      intro s' hst hw ha ho
      obtain ⟨w', a', b'⟩ := s'
      simp only at hw ha
      subst ha
      rw [ho, run, hst]
      simp only
      have e1 : ((w' :: s.ancestors).dropLast).map (·.kind) = ((s.working :: s.ancestors).dropLast).map (·.kind) := by
        cases s.ancestors <;> simp [hw]
      have e2 : ∀ a ∈ (w' :: s.ancestors).dropLast, a.kind = .item ∨ a.kind = .quote := by
        intro a ha
        have : a.kind ∈ ((w' :: s.ancestors).dropLast).map (·.kind) := List.mem_map_of_mem ha
        rw [e1, List.mem_map] at this
        obtain ⟨b, hb, he⟩ := this
        rw [← he]; exact hk b hb
      have e3 : ∀ q, (w' :: s.ancestors).getLast? = some q → q.kind = .root := by
        intro q hq
        cases hanc : s.ancestors with
        | nil => rw [hanc] at hq hr; simp only [List.getLast?_singleton, Option.some.injEq, forall_eq'] at hq hr; rw [← hq, hw]; exact hr
        | cons p t => rw [hanc, List.getLast?_cons_cons] at hq; rw [hanc] at hr; exact hr q (by rw [List.getLast?_cons_cons]; exact hq)
      have := ih ⟨w', s.ancestors, b'⟩ e2 e3
      simp only [e1] at this
      exact this
    -- opening a block
    have down : ∀ k d, (k = .item ∨ k = .quote) → step src s e = .ok (s.down k d) → (∀ st, openBlocks st (e :: r) = openBlocks (k :: st) r) →
        (openBlocks (((s.working :: s.ancestors).dropLast).map (·.kind)) (e :: r) = none → run src s (e :: r) = .error .mismatch) ∧
        (∀ st, openBlocks (((s.working :: s.ancestors).dropLast).map (·.kind)) (e :: r) = some st →
          ∃ s', run src s (e :: r) = .ok s' ∧ ((s'.working :: s'.ancestors).dropLast).map (·.kind) = st ∧
            ∀ r, (s'.working :: s'.ancestors).getLast? = some r → r.kind = .root) := by
      intro k d hkk hst ho
      rw [ho, run, hst]
      simp only
      have := ih (s.down k d)
      simp only [State.down, List.dropLast_cons_cons, List.map_cons, Node.kind, List.mem_cons, forall_eq_or_imp] at this
      refine this ⟨hkk, hk⟩ ?_
      intro q hq
      rw [List.getLast?_cons_cons] at hq
      exact hr q hq
    -- closing a block
    have up : ∀ (w' : Node) k, s.working.kind = k → (k = .item ∨ k = .quote) → step src s e = ({ s with working := w' } : State).up →
        (∀ st, openBlocks (k :: st) (e :: r) = openBlocks st r) →
        (openBlocks (((s.working :: s.ancestors).dropLast).map (·.kind)) (e :: r) = none → run src s (e :: r) = .error .mismatch) ∧
        (∀ st, openBlocks (((s.working :: s.ancestors).dropLast).map (·.kind)) (e :: r) = some st →
          ∃ s', run src s (e :: r) = .ok s' ∧ ((s'.working :: s'.ancestors).dropLast).map (·.kind) = st ∧
            ∀ r, (s'.working :: s'.ancestors).getLast? = some r → r.kind = .root) := by
      intro w' k hw hkk hst ho
      cases hanc : s.ancestors with
      | nil =>
        have := hr s.working (by simp [hanc])
        rw [hw] at this
        rcases hkk with rfl | rfl <;> simp at this
      | cons p t =>
        have hup : step src s e = .ok ⟨p.push w', t, s.listBlock⟩ := by rw [hst]; simp [State.up, hanc]
        have hpk : (p.push w').kind = p.kind := by cases p; rfl
        simp only [List.dropLast_cons_cons, List.map_cons, hw, ho]
        rw [run, hup]
        simp only
        have e1 : ((p.push w' :: t).dropLast).map (·.kind) = ((p :: t).dropLast).map (·.kind) := by
          cases t <;> simp [hpk]
        have e2 : ∀ a ∈ (p.push w' :: t).dropLast, a.kind = .item ∨ a.kind = .quote := by
          intro a ha
          have : a.kind ∈ ((p.push w' :: t).dropLast).map (·.kind) := List.mem_map_of_mem ha
          rw [e1, List.mem_map] at this
          obtain ⟨b, hb, he⟩ := this
          rw [← he]
          exact hk b (by rw [hanc, List.dropLast_cons_cons]; simp [hb])
        have e3 : ∀ q, (p.push w' :: t).getLast? = some q → q.kind = .root := by
          intro q hq
          rw [hanc] at hr
          cases t with
          | nil =>
            simp only [List.getLast?_singleton, Option.some.injEq] at hq
            rw [← hq, hpk]
            exact hr p (by simp)
          | cons u t => rw [List.getLast?_cons_cons] at hq; exact hr q (by rw [List.getLast?_cons_cons, List.getLast?_cons_cons]; exact hq)
        have := ih ⟨p.push w', t, s.listBlock⟩ e2 e3
        simp only [e1] at this
        exact this
    -- an end that does not match
    have bad : step src s e = .error .mismatch → openBlocks (((s.working :: s.ancestors).dropLast).map (·.kind)) (e :: r) = none →
        (openBlocks (((s.working :: s.ancestors).dropLast).map (·.kind)) (e :: r) = none → run src s (e :: r) = .error .mismatch) ∧
        (∀ st, openBlocks (((s.working :: s.ancestors).dropLast).map (·.kind)) (e :: r) = some st →
          ∃ s', run src s (e :: r) = .ok s' ∧ ((s'.working :: s'.ancestors).dropLast).map (·.kind) = st ∧
            ∀ r, (s'.working :: s'.ancestors).getLast? = some r → r.kind = .root) := by
      intro hst ho
      rw [ho]
      refine ⟨fun _ => by rw [run, hst], by simp⟩
    have pk : ∀ (n x : Node), (n.push x).kind = n.kind := by intro n x; cases n; rfl
    cases e with
    | header t l => exact same _ rfl (pk _ _) rfl (fun _ => by rfl)
    | beginList f => exact same _ rfl rfl rfl (fun _ => by rfl)
    | list t f => exact same _ rfl rfl rfl (fun _ => by rfl)
    | code t l => exact same _ rfl (pk _ _) rfl (fun _ => by rfl)
    | paragraph t => exact same _ rfl (pk _ _) rfl (fun _ => by rfl)
    | hrule => exact same _ rfl (pk _ _) rfl (fun _ => by rfl)
    | html t => exact same _ rfl (pk _ _) rfl (fun _ => by rfl)
    | parsed m =>
      have hm : m ≠ [] := by rintro rfl; exact hs (by simp)
      have : ∃ s', step src s (.parsed m) = .ok s' ∧ s'.working.kind = s.working.kind ∧ s'.ancestors = s.ancestors := by
        simp only [step, didParse]
        split
        · exact ⟨_, rfl, rfl, rfl⟩
        · split
          · exact ⟨_, rfl, rfl, rfl⟩
          · cases m with
            | nil => exact absurd rfl hm
            | cons f m =>
              obtain ⟨l, hl⟩ : ∃ l, (f :: m).getLast? = some l := ⟨_, List.getLast?_eq_some_getLast (by simp)⟩
              simp only [hl, List.head?_cons]
              split
              · exact ⟨_, rfl, rfl, rfl⟩
              · exact ⟨_, rfl, by cases s.working; rfl, rfl⟩
      obtain ⟨s', h1, h2, h3⟩ := this
      exact same s' h1 h2 h3 (fun _ => by rfl)
    | beginItem f => exact down .item f (.inl rfl) rfl (fun _ => rfl)
    | beginQuote => exact down .quote 0 (.inr rfl) rfl (fun _ => rfl)
    | item t f =>
      by_cases hw : s.working.kind = .item
      · refine up _ .item hw (.inl rfl) (by simp only [step, hw, ne_eq, not_true_eq_false, ↓reduceIte]; rfl) (fun _ => rfl)
      · refine bad (by simp [step, hw]) ?_
        cases hanc : s.ancestors with
        | nil => rfl
        | cons p q =>
          simp only [List.dropLast_cons_cons, List.map_cons]
          exact open_item _ hw _ _ _ _
    | quote t =>
      by_cases hw : s.working.kind = .quote
      · refine up _ .quote hw (.inr rfl) (by simp only [step, hw, ne_eq, not_true_eq_false, ↓reduceIte]; rfl) (fun _ => rfl)
      · refine bad (by simp [step, hw]) ?_
        cases hanc : s.ancestors with
        | nil => rfl
        | cons p q =>
          simp only [List.dropLast_cons_cons, List.map_cons]
          exact open_quote _ hw _ _ _

/-- C59: for any sequence of callbacks in which no source map is empty, the parse ends with the exception "working node mismatch" if
    and only if the end of some block does not match the innermost open block; otherwise it ends with a tree.  The exception "no parent
    set" is never thrown. -/
theorem C59_mismatch (src : Bytes) (es : List Event) (hs : Event.parsed [] ∉ es) :
    (parse src es = .error .mismatch ↔ openBlocks [] es = none) ∧ (openBlocks [] es ≠ none → ∃ n, parse src es = .ok n) := by
  have h := run_open src es hs ⟨.mk .root [] 0 [⟨0, src.length⟩] [], [], false⟩ (by simp) (by simp [Node.kind])
  simp only [List.dropLast_singleton, List.map_nil] at h
  have h2 : openBlocks [] es ≠ none → ∃ n, parse src es = .ok n := by
    intro hne
    obtain ⟨st, hst⟩ := Option.ne_none_iff_exists'.1 hne
    obtain ⟨s', hr, _⟩ := h.2 st hst
    exact ⟨_, by rw [parse, hr]⟩
  refine ⟨⟨fun hp => ?_, fun hn => by rw [parse, h.1 hn]⟩, h2⟩
  by_contra hne
  obtain ⟨n, hn⟩ := h2 hne
  rw [hn] at hp
  cases hp

/-! ## C60 -/

/-- A list item starts with a paragraph. -/
def StartsWithParagraph (x : Node) : Prop := x.kind = .item → ∃ c cs, x.children = c :: cs ∧ c.kind = .paragraph

theorem within_setChildren {n : Node} {cs : List Node} {x : Node} (h : Within (n.setChildren cs) x) :
    x = n.setChildren cs ∨ ∃ c ∈ cs, Within c x := by
  cases h with
  | self => exact .inl rfl
  | child hc hx => rw [children_setChildren] at hc; exact .inr ⟨_, hc, hx⟩

/-- All complete blocks below the node are fine. -/
def Below (n : Node) : Prop := ∀ c ∈ n.children, ∀ x, Within c x → StartsWithParagraph x

theorem below_good {n : Node} (h : Below n) (hs : StartsWithParagraph n) : ∀ x, Within n x → StartsWithParagraph x := by
  intro x hx
  cases hx with
  | self => exact hs
  | child hc hx => exact h _ hc x hx

theorem below_push {n x : Node} (h : Below n) (hx : ∀ y, Within x y → StartsWithParagraph y) : Below (n.push x) := by
  intro c hc
  rw [Node.push, children_setChildren, List.mem_append, List.mem_singleton] at hc
  rcases hc with hc | rfl
  · exact h c hc
  · exact hx

theorem leaf_good (k : Kind) (hk : k ≠ .item) (t : Bytes) (d : Int) : ∀ y, Within (.mk k t d [] []) y → StartsWithParagraph y := by
  intro y hy
  cases hy with
  | self => exact fun h => absurd h hk
  | child hc => simp [Node.children] at hc

theorem good_setMap {n : Node} (m : List Range) (h : ∀ y, Within n y → StartsWithParagraph y) : ∀ y, Within (n.setMap m) y → StartsWithParagraph y := by
  intro y hy
  cases hy with
  | self => have := h n (.self n); cases n; exact this
  | child hc hy => exact h y (.child (by cases n; exact hc) hy)

theorem good_share (src : Bytes) (m : List Range) (f : Range) (n : Node) (h : ∀ y, Within n y → StartsWithParagraph y) :
    ∀ y, Within (share src m f n) y → StartsWithParagraph y := by
  unfold share
  split
  · rename_i c cs hk hc
    have h0 := h n (.self n) hk
    rw [hc] at h0
    obtain ⟨c', cs', he, hp⟩ := h0
    cases he
    have hcs : ∀ x ∈ cs, ∀ y, Within x y → StartsWithParagraph y := fun x hx y hy => h y (.child (by rw [hc]; simp [hx]) hy)
    have hcc : ∀ y, Within c y → StartsWithParagraph y := fun y hy => h y (.child (by rw [hc]; simp) hy)
    have key : ∀ m', ∀ y, Within (n.setChildren (c.setMap m' :: cs)) y → StartsWithParagraph y := by
      intro m' y hy
      rcases within_setChildren hy with rfl | ⟨x, hx, hy⟩
      · intro _
        exact ⟨c.setMap m', cs, children_setChildren _ _, by cases c; exact hp⟩
      · simp only [List.mem_cons] at hx
        rcases hx with rfl | hx
        · exact good_setMap _ hcc y hy
        · exact hcs x hx y hy
    split
    · split
      · exact key _
      · exact key _
    · exact h
  · exact h

theorem step_below (src : Bytes) (e : Event) (s s' : State) (h : step src s e = .ok s') (hw : Below s.working)
    (ha : ∀ a ∈ s.ancestors, Below a) : Below s'.working ∧ ∀ a ∈ s'.ancestors, Below a := by
  have up : ∀ w' : Node, ({ s with working := w' } : State).up = .ok s' → (∀ y, Within w' y → StartsWithParagraph y) →
      Below s'.working ∧ ∀ a ∈ s'.ancestors, Below a := by
    intro w' hu hg
    unfold State.up at hu
    cases hanc : s.ancestors with
    | nil => simp [hanc] at hu
    | cons p t =>
      simp only [hanc] at hu
      cases hu
      rw [hanc] at ha
      exact ⟨below_push (ha p (by simp)) hg, fun a h => ha a (by simp [h])⟩
  cases e with
  | header t l => cases h; exact ⟨below_push hw (leaf_good _ (by simp) _ _), ha⟩
  | beginList f => cases h; exact ⟨hw, ha⟩
  | list t f => cases h; exact ⟨hw, ha⟩
  | code t l => cases h; exact ⟨below_push hw (leaf_good _ (by simp) _ _), ha⟩
  | paragraph t => cases h; exact ⟨below_push hw (leaf_good _ (by simp) _ _), ha⟩
  | hrule => cases h; exact ⟨below_push hw (leaf_good _ (by simp) _ _), ha⟩
  | html t => cases h; exact ⟨below_push hw (leaf_good _ (by simp) _ _), ha⟩
  | beginItem f =>
    cases h
    refine ⟨fun c hc => by simp [State.down, Node.children] at hc, ?_⟩
    intro a h
    simp only [State.down, List.mem_cons] at h
    rcases h with rfl | h
    exacts [hw, ha a h]
  | beginQuote =>
    cases h
    refine ⟨fun c hc => by simp [State.down, Node.children] at hc, ?_⟩
    intro a h
    simp only [State.down, List.mem_cons] at h
    rcases h with rfl | h
    exacts [hw, ha a h]
  | quote t =>
    simp only [step] at h
    split at h
    · cases h
    · rename_i hk
      refine up _ h ?_
      have hk' : s.working.kind = .quote := by simpa using hk
      intro y hy
      cases hy with
      | self => intro hi; have : (s.working.setText t).kind = s.working.kind := by cases s.working; rfl
                rw [this, hk'] at hi; cases hi
      | child hc hy => exact hw _ (by cases hs : s.working; rw [hs] at hc; exact hc) y hy
  | item t f =>
    simp only [step] at h
    split at h
    · cases h
    · refine up _ h ?_
      have hd : ∀ (n : Node), (n.setData f).children = n.children := by intro n; cases n; rfl
      have hpar := leaf_good .paragraph (by simp) t 0
      intro y hy
      cases hy with
      | self =>
        intro _
        rw [hd]
        split
        · exact ⟨_, [], children_setChildren _ _, rfl⟩
        · rename_i c cs hc
          split
          · exact ⟨_, _, children_setChildren _ _, rfl⟩
          · rename_i hk; exact ⟨c, cs, hc, by simpa using hk⟩
      | child hc hy =>
        rw [hd] at hc
        split at hc
        · rw [children_setChildren, List.mem_singleton] at hc; subst hc; exact hpar y hy
        · rename_i c cs hcc
          split at hc
          · rw [children_setChildren, List.mem_cons] at hc
            rcases hc with rfl | hc
            · exact hpar y hy
            · exact hw _ (by rw [hcc]; exact hc) y hy
          · exact hw _ hc y hy
  | parsed m =>
    simp only [step, didParse] at h
    split at h
    · cases h; exact ⟨hw, ha⟩
    · split at h
      · cases h; exact ⟨hw, ha⟩
      · rename_i n hn
        split at h
        · split at h
          · cases h; exact ⟨hw, ha⟩
          · cases h
            refine ⟨?_, ha⟩
            intro c hc
            simp only [children_setChildren, List.mem_append, List.mem_singleton] at hc
            rcases hc with hc | rfl
            · exact hw c ((List.dropLast_sublist _).subset hc)
            · exact good_share _ _ _ _ (good_setMap _ (hw n (List.mem_of_getLast? hn)))
        · cases h

theorem run_below (src : Bytes) (es : List Event) : ∀ (s s' : State), run src s es = .ok s' → Below s.working →
    (∀ a ∈ s.ancestors, Below a) → Below s'.working ∧ ∀ a ∈ s'.ancestors, Below a := by
  induction es with
  | nil => intro s s' h hw ha; cases h; exact ⟨hw, ha⟩
  | cons e r ih =>
    intro s s' h hw ha
    rw [run] at h
    cases hs : step src s e with
    | error f => rw [hs] at h; cases h
    | ok s1 =>
      rw [hs] at h
      obtain ⟨h1, h2⟩ := step_below src e s s1 hs hw ha
      exact ih s1 s' h h1 h2

/-- C60: whatever the callbacks, if all blocks are closed at the end, every list item in the tree has a paragraph as its first
    child. -/
theorem C60_items (src : Bytes) (es : List Event) (hs : Event.parsed [] ∉ es) (ho : openBlocks [] es = some []) (n : Node)
    (h : parse src es = .ok n) (x : Node) (hx : Within n x) (hk : x.kind = .item) :
    ∃ c cs, x.children = c :: cs ∧ c.kind = .paragraph := by
  obtain ⟨s', hr, h1, h2⟩ := (run_open src es hs ⟨.mk .root [] 0 [⟨0, src.length⟩] [], [], false⟩ (by simp) (by simp [Node.kind])).2 [] ho
  have hb := run_below src es _ s' hr (fun c hc => by simp [Node.children] at hc) (by simp)
  rw [parse, hr] at h
  cases hanc : s'.ancestors with
  | cons p t => rw [hanc, List.dropLast_cons_cons] at h1; simp at h1
  | nil =>
    simp only [hanc, finish] at h
    cases h
    have hroot := h2 s'.working (by simp [hanc])
    exact below_good hb.1 (fun hk => by rw [hroot] at hk; cases hk) x hx hk

/-! ## C61 -/

mutual
/-- All source maps reported for the block and those in it. -/
def AllNotes (P : List Range → Prop) : Tree → Prop
  | .mk _ _ _ notes cs => (∀ m ∈ notes, P m) ∧ AllNotesL P cs
termination_by structural t => t
def AllNotesL (P : List Range → Prop) : List Tree → Prop
  | [] => True
  | t :: ts => AllNotes P t ∧ AllNotesL P ts
termination_by structural t => t
end

theorem allNotes_append (P : List Range → Prop) (a b : List Tree) : AllNotesL P (a ++ b) ↔ AllNotesL P a ∧ AllNotesL P b := by
  induction a with
  | nil => simp [AllNotesL]
  | cons t r ih => simp only [List.cons_append, AllNotesL, ih, and_assoc]

theorem describes_notes {P : List Range → Prop} {es : List Event} {ts : List Tree} (h : Describes es ts)
    (hp : ∀ m, Event.parsed m ∈ es → P m) : AllNotesL P ts := by
  induction h with
  | nil => simp [AllNotesL]
  | leaf _ _ ih =>
    exact (allNotes_append _ _ _).2 ⟨ih fun m hm => hp m (by simp [hm]), by simp [AllNotesL, AllNotes]⟩
  | quote text _ _ ih1 ih2 =>
    exact (allNotes_append _ _ _).2 ⟨ih1 fun m hm => hp m (by simp [hm]), by simpa [AllNotesL, AllNotes] using ih2 fun m hm => hp m (by simp [hm])⟩
  | @item es ts inner cs f text flags _ _ ih1 ih2 =>
    refine (allNotes_append _ _ _).2 ⟨ih1 fun m hm => hp m (by simp [hm]), ?_⟩
    have := ih2 fun m hm => hp m (by simp [hm])
    simp only [AllNotesL, AllNotes, List.not_mem_nil, false_implies, implies_true, true_and, and_true]
    cases cs with
    | nil => simp [withParagraph, AllNotesL, AllNotes]
    | cons c cs =>
      simp only [withParagraph]
      split
      · exact this
      · simp only [AllNotesL, AllNotes, List.not_mem_nil, false_implies, implies_true, true_and]
        exact this
  | beginList _ _ ih => exact ih fun m hm => hp m (by simp [hm])
  | list _ _ _ _ ih => exact ih fun m hm => hp m (by simp [hm])
  | @note es ts t m _ ih =>
    have := (allNotes_append _ _ _).1 (ih fun m hm => hp m (by simp [hm]))
    refine (allNotes_append _ _ _).2 ⟨this.1, ?_⟩
    obtain ⟨k, tx, d, ns, c⟩ := t
    simp only [AllNotesL, AllNotes, Tree.note, and_true] at this ⊢
    refine ⟨?_, this.2.2⟩
    intro x hx
    simp only [List.mem_append, List.mem_singleton] at hx
    rcases hx with hx | rfl
    · exact this.2.1 x hx
    · exact hp x (by simp)
  | unused _ _ _ => simp [AllNotesL]

theorem positions_lt {len : Nat} {m : List Range} (h : ∀ r ∈ m, r.location + r.length ≤ len) : ∀ p ∈ positions m, p < len := by
  intro p hp
  simp only [positions, List.mem_flatMap, cover, List.mem_range'] at hp
  obtain ⟨r, hr, i, hi, rfl⟩ := hp
  have := h r hr
  omega

theorem sorted_sum (len : Nat) (m : List Range) (hin : ∀ r ∈ m, r.location + r.length ≤ len)
    (hs : m.Pairwise fun a b => a.location + a.length ≤ b.location) : ∀ front, m.head? = some front →
    front.location + (m.map (·.length)).sum ≤ len := by
  induction m with
  | nil => intro f h; simp at h
  | cons r m ih =>
    intro f h
    simp only [List.head?_cons, Option.some.injEq] at h
    subst h
    rw [List.pairwise_cons] at hs
    simp only [List.map_cons, List.sum_cons]
    cases m with
    | nil => simpa using hin r (by simp)
    | cons q m =>
      have := ih (fun x hx => hin x (by simp [hx])) hs.2 q rfl
      have := hs.1 q (by simp)
      omega

theorem mapped_length (src : Bytes) (m : List Range) (hin : ∀ r ∈ m, r.location + r.length ≤ src.length) :
    (mapBytesRangeSet m src).length ≤ (m.map (·.length)).sum := by
  unfold mapBytesRangeSet
  split
  · simp
  · have : ∀ acc, (mapLoop src m acc).length ≤ acc.length + (m.map (·.length)).sum := by
      induction m with
      | nil => intro acc; simp [mapLoop]
      | cons r m ih =>
        intro acc
        have hr := hin r (by simp)
        rw [mapLoop, if_neg (by omega)]
        have := ih (fun x hx => hin x (by simp [hx])) (acc ++ (src.drop r.location).take r.length)
        simp only [List.length_append, List.length_take, List.length_drop, List.map_cons, List.sum_cons] at this ⊢
        omega
    simpa using this []

theorem ownMap_inside {src : Bytes} {lender : Option (List Range)} {text : Bytes} {notes : List (List Range)} {map : List Range}
    (h : OwnMap src lender text notes map) (hl : ∀ m, lender = some m → Inside src.length m) : ∀ p ∈ positions map, p < src.length := by
  rcases h with ⟨_, _, h⟩ | ⟨_, h⟩
  · intro p hp
    rw [h, List.mem_flatMap] at hp
    obtain ⟨m, _, hp⟩ := hp
    unfold heard at hp
    split at hp
    · simp at hp
    · simp only [List.mem_filter, decide_eq_true_eq] at hp; exact hp.2
  · cases lender with
    | none => simp only at h; subst h; simp [positions]
    | some m =>
      obtain ⟨_, hin, hs⟩ := hl m rfl
      rcases h with ⟨a, b, front, hm, _, hf, rfl⟩ | ⟨_, rfl, _⟩
      · apply positions_lt
        intro r hr
        simp only [List.mem_singleton] at hr
        subst hr
        have h1 := sorted_sum _ m hin hs front hf
        have h2 := mapped_length src m hin
        rw [hm] at h2
        simp only [List.length_append] at h2 ⊢
        omega
      · exact positions_lt hin

mutual
theorem renders_inside (src : Bytes) : ∀ (t : Tree) (lender : Option (List Range)) (n : Node), Renders src lender t n → AllNotes (Inside src.length) t →
    (∀ m, lender = some m → Inside src.length m) → ∀ x, Within n x → ∀ p ∈ positions x.sourceMap, p < src.length
  | .mk k text data notes cs, lender, n, h, ha, hl, x, hx => by
    simp only [Renders] at h
    obtain ⟨_, _, _, hmap, m, hm, hc⟩ := h
    simp only [AllNotes] at ha
    cases hx with
    | self => exact ownMap_inside hmap hl
    | child hcn hx =>
      refine rendersAll_inside src cs m n.children hc ha.2 ?_ _ hcn x hx
      rintro q rfl
      split at hm
      · obtain ⟨a, b, rfl, _, _⟩ := hm
        exact ha.1 q (by simp)
      · cases hm
theorem rendersAll_inside (src : Bytes) : ∀ (ts : List Tree) (lender : Option (List Range)) (ns : List Node), RendersAll src lender ts ns →
    AllNotesL (Inside src.length) ts → (∀ m, lender = some m → Inside src.length m) → ∀ n ∈ ns, ∀ x, Within n x →
    ∀ p ∈ positions x.sourceMap, p < src.length
  | [], lender, ns, h, _, _, n, hn => by simp only [RendersAll] at h; subst h; simp at hn
  | t :: ts, lender, ns, h, ha, hl, n, hn => by
    simp only [RendersAll] at h
    obtain ⟨x, xs, rfl, h1, h2⟩ := h
    simp only [AllNotesL] at ha
    simp only [List.mem_cons] at hn
    rcases hn with rfl | hn
    · exact renders_inside src t lender n h1 ha.1 hl
    · exact rendersAll_inside src ts none xs h2 ha.2 (by simp) n hn
end

theorem sane_of_inside {len : Nat} {m : List Range} (h : Inside len m) : Sane len m := by
  obtain ⟨hne, hin, _⟩ := h
  refine ⟨m.dropLast, m.getLast hne, (List.dropLast_concat_getLast hne).symm, ?_, fun r hr => hin r ((List.dropLast_sublist _).subset hr)⟩
  have := hin _ (List.getLast_mem hne)
  omega

/-- C61 (sources to which Sundown adds no newline): if the source maps reported are inside the source, then so are those of all
    nodes.  Missing: maps that go beyond the end by the newline added, where it fails (`C61_overrun_refuted`). -/
theorem C61_inside_partial (src : Bytes) (es : List Event) (ts : List Tree) (h : Describes es ts)
    (hs : ∀ m, Event.parsed m ∈ es → Inside src.length m) (n : Node) (hp : parse src es = .ok n) (x : Node) (hx : Within n x) :
    ∀ p ∈ positions x.sourceMap, p < src.length := by
  obtain ⟨n', hp', _, _, hm, hr⟩ := C59_tree src es ts h (fun m hm => sane_of_inside (hs m hm))
  rw [hp] at hp'
  cases hp'
  cases hx with
  | self => rw [hm]; exact positions_lt (by simp)
  | child hc hx => exact rendersAll_inside src ts none _ hr (describes_notes h hs) (by simp) _ hc x hx

/-- C61: in general the source map of a node stays inside the source, unless the node is the first in a list item whose reported source map does
    not contain the text of the node. -/
theorem C61_own (src : Bytes) (notes : List (List Range)) (text : Bytes) (map : List Range) (lender : Option (List Range))
    (h : OwnMap src lender text notes map) (hl : ∃ m ∈ notes, ¬Artificial src.length m) : ∀ p ∈ positions map, p < src.length := by
  rcases h with ⟨_, _, h⟩ | ⟨ha, _⟩
  · exact ownMap_inside (lender := none) (text := []) (.inl ⟨hl, by assumption, h⟩) (by simp)
  · obtain ⟨m, hm, hn⟩ := hl
    exact absurd (ha m hm) hn

/-- C61: the paragraph that is made for the text of a list item: if one range is reported for the item and the text occurs in it, its
    source map is one range, inside the source, whose bytes are exactly the text. -/
theorem C61_text (src : Bytes) (r : Range) (text : Bytes) (map : List Range) (h : Borrowed src [r] text map) (hi : r.location + r.length ≤ src.length + 1)
    (hr : r.location ≤ src.length) (ho : ∃ a b, (src.drop r.location).take r.length = a ++ text ++ b) :
    ∃ q, map = [q] ∧ q.location + q.length ≤ src.length ∧ (src.drop q.location).take q.length = text := by
  have hm : mapBytesRangeSet [r] src = (src.drop r.location).take r.length := by
    unfold mapBytesRangeSet
    split
    · rename_i he; have : src = [] := by simpa using he
      subst this; simp
    · simp only [mapLoop]
      split
      · rw [if_pos (by omega), List.nil_append, List.take_of_length_le (by simp), List.take_of_length_le (by simp; omega)]
      · simp
  obtain ⟨a', b', ho⟩ := ho
  rcases h with ⟨a, b, front, h1, _, hf, rfl⟩ | ⟨hn, _⟩
  · rw [hm] at h1
    simp only [List.head?_cons, Option.some.injEq] at hf
    subst hf
    have hlen := congrArg List.length h1
    simp only [List.length_take, List.length_drop, List.length_append] at hlen
    refine ⟨_, rfl, by simp only; omega, ?_⟩
    simp only
    have h2 : src.drop r.location = a ++ text ++ b ++ (src.drop r.location).drop r.length := by
      conv_lhs => rw [← List.take_append_drop r.length (src.drop r.location), h1]
    rw [← List.drop_drop, h2]
    simp
  · rw [hm] at hn
    exact absurd ho (hn a' b')

/-- "- a", newline, four blanks, "b", without a newline at the end. -/
def lastItem : Bytes := str "- a\n    b"

/-- What Sundown reports for it: one item, whose text is "a", newline, "b", over the source and the newline added. -/
def lastItemEvents : List Event :=
  [.beginList 0, .beginItem 0, .item (str "a\nb") 0, .parsed [⟨0, 10⟩], .list [] 0, .parsed [⟨0, 10⟩]]

/-- C61 is false if the newline added is in the source map and the text of the item is not found: the source map of the paragraph goes
    beyond the end of the source. -/
theorem C61_overrun_refuted : ∃ n x, parse lastItem lastItemEvents = .ok n ∧ Within n x ∧ x.kind = .paragraph ∧ lastItem.length ∈ positions x.sourceMap := by
  refine ⟨.mk .root [] 0 [⟨0, 9⟩] [.mk .item [] 0 [⟨0, 9⟩] [.mk .paragraph (str "a\nb") 0 [⟨0, 10⟩] []]], .mk .paragraph (str "a\nb") 0 [⟨0, 10⟩] [], by rfl, ?_, rfl, by decide +kernel⟩
  exact .child (List.mem_singleton.2 rfl) (.child (List.mem_singleton.2 rfl) (.self _))

/-- C61: the position of the text is computed as if the source map of the item were one range: if it has a gap, the source map of the
    paragraph is somewhere else. -/
theorem C61_gap_refuted : ∃ n x q, parse (str "+ > + a\n") [.beginItem 0, .item (str "a") 0, .parsed [⟨0, 2⟩, ⟨4, 4⟩]] = .ok n ∧ Within n x ∧
    x.kind = .paragraph ∧ x.sourceMap = [q] ∧ ((str "+ > + a\n").drop q.location).take q.length ≠ x.text := by
  refine ⟨.mk .root [] 0 [⟨0, 8⟩] [.mk .item [] 0 [⟨0, 2⟩, ⟨4, 4⟩] [.mk .paragraph (str "a") 0 [⟨4, 1⟩] []]], .mk .paragraph (str "a") 0 [⟨4, 1⟩] [], ⟨4, 1⟩,
    by rfl, ?_, rfl, rfl, by decide +kernel⟩
  exact .child (List.mem_singleton.2 rfl) (.child (List.mem_singleton.2 rfl) (.self _))

/-- The hypotheses of C59 are met by that sequence of callbacks. -/
example : Describes lastItemEvents [.mk .item [] 0 [[⟨0, 10⟩]] [.mk .paragraph (str "a\nb") 0 [] []]] ∧
    (∀ m, Event.parsed m ∈ lastItemEvents → Sane lastItem.length m) ∧ openBlocks [] lastItemEvents = some [] := by
  refine ⟨?_, ?_, rfl⟩
  · exact .list (es := [.beginList 0, .beginItem 0, .item (str "a\nb") 0, .parsed [⟨0, 10⟩]]) [] 0 [⟨0, 10⟩]
      (.note (es := [.beginList 0, .beginItem 0, .item (str "a\nb") 0]) (ts := []) [⟨0, 10⟩]
        (.item (es := [.beginList 0]) (ts := []) (inner := []) (cs := []) 0 (str "a\nb") 0 (.beginList 0 .nil) .nil))
  · intro m hm
    simp only [lastItemEvents, List.mem_cons, reduceCtorEq, Event.parsed.injEq, false_or, List.not_mem_nil, or_false] at hm
    rcases hm with rfl | rfl <;> exact ⟨[], ⟨0, 10⟩, rfl, by decide, by simp⟩

/-- A header, and a list item with a quote in it: the item starts with the paragraph made for its text. -/
example : parse (str "# A\n- > q\n") [.header (str "A") 1, .parsed [⟨0, 4⟩], .beginList 0, .beginItem 0, .beginQuote, .paragraph (str "q"), .quote [],
      .parsed [⟨6, 4⟩], .item [] 0, .parsed [⟨4, 6⟩], .list [] 0, .parsed [⟨4, 6⟩]] =
    .ok (.mk .root [] 0 [⟨0, 10⟩] [.mk .header (str "A") 1 [⟨0, 4⟩] [],
      .mk .item [] 0 [⟨4, 6⟩] [.mk .paragraph [] 0 [⟨4, 0⟩] [], .mk .quote [] 0 [⟨6, 4⟩] [.mk .paragraph (str "q") 0 [] []]]]) := by rfl

end Verif.Props
