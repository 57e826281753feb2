import Verif.Spec.Markdown
import Verif.Proof.ByteBuffer
import Verif.Proof.Util
/-!
# Proofs about the builder of the Markdown tree
-/
namespace Verif.Markdown
open Verif Verif.ByteBuffer Verif.Spec Verif.Spec.Markdown

theorem run_append (src : Bytes) (a b : List Event) : ∀ s, run src s (a ++ b) = (run src s a).bind (fun s' => run src s' b) := by
  induction a with
  | nil => intro s; rfl
  | cons e r ih =>
    intro s
    simp only [List.cons_append, run]
    cases step src s e with
    | ok s' => exact ih s'
    | error f => rfl

/-- `find` gives the first occurrence. -/
theorem find_some {hay needle : Bytes} {pos : Nat} (h : find hay needle = some pos) :
    ∃ a b, hay = a ++ needle ++ b ∧ a.length = pos ∧ ∀ a' b', hay = a' ++ needle ++ b' → pos ≤ a'.length := by
  unfold find at h
  rw [List.find?_range_eq_some] at h
  obtain ⟨h1, h2, h3⟩ := h
  simp only [decide_eq_true_eq] at h1
  have hp : pos ≤ hay.length := by simp only [List.mem_range] at h2; omega
  refine ⟨hay.take pos, (hay.drop pos).drop needle.length, ?_, by simp; omega, ?_⟩
  · conv_lhs => rw [← List.take_append_drop pos hay, ← List.take_append_drop needle.length (hay.drop pos), h1]
    simp
  · intro a' b' he
    by_contra hlt
    have := h3 a'.length (by omega)
    subst he
    simp at this

theorem find_none {hay needle : Bytes} (h : find hay needle = none) (a b : Bytes) : hay ≠ a ++ needle ++ b := by
  rintro rfl
  unfold find at h
  rw [List.find?_eq_none] at h
  have := h a.length (by simp; omega)
  simp at this

theorem positions_filter (len : Nat) (l n : Nat) (h : l ≤ len) (h2 : len ≤ l + n) :
    (cover l n).filter (· < len) = cover l (len - l) := by
  have : n = (len - l) + (n - (len - l)) := by omega
  rw [this, cover_append, List.filter_append]
  have h3 : (cover l (len - l)).filter (· < len) = cover l (len - l) := by
    rw [List.filter_eq_self]
    intro x hx
    simp only [cover, List.mem_range'] at hx
    simp; omega
  have h4 : (cover (l + (len - l)) (n - (len - l))).filter (· < len) = [] := by
    rw [List.filter_eq_nil_iff]
    intro x hx
    simp only [cover, List.mem_range'] at hx
    simp; omega
  rw [h3, h4, List.append_nil]

theorem positions_inside (len : Nat) (rs : List Range) (h : ∀ r ∈ rs, r.location + r.length ≤ len) :
    (positions rs).filter (· < len) = positions rs := by
  rw [List.filter_eq_self]
  intro x hx
  simp only [positions, List.mem_flatMap, cover, List.mem_range'] at hx
  obtain ⟨r, hr, i, hi, rfl⟩ := hx
  have := h r hr
  simp; omega

theorem positions_snoc (rs : List Range) (r : Range) : positions (rs ++ [r]) = positions rs ++ cover r.location r.length := by
  simp [positions]

theorem recorded_artificial {len : Nat} {rs : List Range} {last : Range} (h1 : last.location = len) (h2 : 0 < last.length) :
    recorded len (rs ++ [last]) last = none := by
  simp [recorded, h1, sub64]
  omega

theorem recorded_real {len : Nat} {rs : List Range} {last : Range} (hl : last.location ≤ len) (hr : ∀ r ∈ rs, r.location + r.length ≤ len)
    (h : ¬Artificial len (rs ++ [last])) :
    ∃ work, recorded len (rs ++ [last]) last = some work ∧ work ≠ [] ∧ positions work = heard len (rs ++ [last]) := by
  unfold heard
  rw [if_neg h]
  unfold recorded
  split
  · rename_i hgt
    have hne : last.location ≠ len := fun he => h ⟨rs, last, rfl, he, by omega⟩
    have hs : sub64 len last.location = len - last.location := by simp [sub64, hl]
    rw [hs, if_neg (by omega)]
    refine ⟨_, rfl, by simp, ?_⟩
    rw [List.dropLast_concat, positions_snoc, positions_snoc, List.filter_append, positions_inside len rs hr,
      positions_filter _ _ _ hl (by omega)]
  · rename_i hgt
    refine ⟨_, rfl, by simp, ?_⟩
    rw [positions_inside]
    intro r hr'
    simp only [List.mem_append, List.mem_singleton] at hr'
    rcases hr' with hr' | rfl
    · exact hr r hr'
    · omega

theorem append_ne_nil (a b : List Range) (h : b ≠ []) : append a b ≠ [] := by
  cases b with
  | nil => exact absurd rfl h
  | cons v vs =>
    unfold append
    simp only
    split
    · simp
    · split <;> simp

theorem append_nil_left (b : List Range) : append [] b = b := by
  cases b <;> rfl

theorem rendersAll_snoc (src : Bytes) (ts : List Tree) (t : Tree) : ∀ ns, RendersAll src none (ts ++ [t]) ns ↔
    ∃ xs x, ns = xs ++ [x] ∧ RendersAll src none ts xs ∧ Renders src none t x := by
  induction ts with
  | nil =>
    intro ns
    simp only [List.nil_append, RendersAll]
    constructor
    · rintro ⟨x, xs, rfl, h, rfl⟩; exact ⟨[], x, rfl, rfl, h⟩
    · rintro ⟨xs, x, rfl, rfl, h⟩; exact ⟨x, [], rfl, h, rfl⟩
  | cons u ts ih =>
    intro ns
    simp only [List.cons_append, RendersAll, ih]
    constructor
    · rintro ⟨x, _, rfl, h, xs, y, rfl, h2, h3⟩; exact ⟨x :: xs, y, rfl, ⟨x, xs, rfl, h, h2⟩, h3⟩
    · rintro ⟨_, y, rfl, ⟨x, xs, rfl, h, h2⟩, h3⟩; exact ⟨x, _, rfl, h, xs, y, rfl, h2, h3⟩

theorem ownMap_note {src : Bytes} {text : Bytes} {notes : List (List Range)} {map m : List Range} (h : OwnMap src none text notes map)
    (work : List Range) (hw : work ≠ []) (hp : positions work = heard src.length m) (hm : ¬Artificial src.length m) (lender : Option (List Range)) :
    OwnMap src lender text (notes ++ [m]) (append map work) := by
  left
  refine ⟨⟨m, by simp, hm⟩, append_ne_nil _ _ hw, ?_⟩
  rw [positions_append, hp, List.flatMap_append]
  simp only [List.flatMap_cons, List.flatMap_nil, List.append_nil]
  congr 1
  rcases h with ⟨_, _, h⟩ | ⟨ha, h⟩
  · exact h
  · simp only at h
    subst h
    have : notes.flatMap (heard src.length) = [] := by
      rw [List.flatMap_eq_nil_iff]
      intro x hx
      simp [heard, ha x hx]
    rw [this]; rfl

theorem ownMap_artificial {src : Bytes} {text : Bytes} {notes : List (List Range)} {map m : List Range} {lender} (h : OwnMap src lender text notes map)
    (hm : Artificial src.length m) : OwnMap src lender text (notes ++ [m]) map := by
  rcases h with ⟨⟨x, hx, hxa⟩, hne, h⟩ | ⟨ha, h⟩
  · left
    refine ⟨⟨x, by simp [hx], hxa⟩, hne, ?_⟩
    rw [h, List.flatMap_append]
    simp [heard, hm]
  · right
    refine ⟨?_, h⟩
    intro x hx
    simp only [List.mem_append, List.mem_singleton] at hx
    rcases hx with hx | rfl
    · exact ha x hx
    · exact hm

/-- Another source map for a block that is complete. -/
theorem renders_note {src : Bytes} {t : Tree} {n : Node} {m : List Range} (h : Renders src none t n) (hs : Sane src.length m) (front : Range)
    (hf : m.head? = some front) (last : Range) (hl : m.getLast? = some last) :
    match recorded src.length m last with
    | none => Renders src none (t.note m) n
    | some work => Renders src none (t.note m) (share src m front (n.setMap (append n.sourceMap work))) := by
  obtain ⟨rs, l, rfl, hll, hrs⟩ := hs
  have : l = last := by simpa using hl
  subst this
  obtain ⟨k, text, data, notes, cs⟩ := t
  obtain ⟨k', text', data', map, ch⟩ := n
  simp only [Renders, Node.kind, Node.text, Node.data, Node.sourceMap, Node.children] at h
  obtain ⟨rfl, rfl, rfl, hmap, lender, hlend, hch⟩ := h
  by_cases ha : Artificial src.length (rs ++ [l])
  · have hr : recorded src.length (rs ++ [l]) l = none := by
      obtain ⟨rs', l', he, h1, h2⟩ := ha
      have hll' : l = l' := by have := congrArg List.getLast? he; simpa using this
      subst hll'
      exact recorded_artificial h1 h2
    rw [hr]
    simp only [Tree.note, Renders, Node.kind, Node.text, Node.data, Node.sourceMap, Node.children, true_and]
    refine ⟨ownMap_artificial hmap ha, lender, ?_, hch⟩
    split
    · rename_i hk
      rw [if_pos hk] at hlend
      cases lender with
      | none =>
        simp only [First] at hlend ⊢
        intro x hx
        simp only [List.mem_append, List.mem_singleton] at hx
        rcases hx with hx | rfl
        exacts [hlend x hx, ha]
      | some q =>
        obtain ⟨a, b, rfl, h1, h2⟩ := hlend
        exact ⟨a, b ++ [rs ++ [l]], by simp, h1, h2⟩
    · rename_i hk
      rwa [if_neg hk] at hlend
  · obtain ⟨work, hr, hw, hp⟩ := recorded_real hll hrs ha
    rw [hr]
    have hown := fun lender => ownMap_note hmap work hw hp ha lender
    simp only [Node.setMap, Node.sourceMap]
    by_cases hk : k' = .item
    · subst hk
      rw [if_pos rfl] at hlend
      cases cs with
      | nil =>
        simp only [RendersAll] at hch
        subst hch
        simp only [share, Node.kind, Node.children, Tree.note, Renders, Node.text, Node.data, Node.sourceMap, true_and]
        refine ⟨hown none, ?_⟩
        simp only [↓reduceIte]
        cases lender with
        | none => exact ⟨some (rs ++ [l]), ⟨notes, [], by simp, ha, hlend⟩, rfl⟩
        | some q =>
          obtain ⟨a, b, rfl, h1, h2⟩ := hlend
          exact ⟨some q, ⟨a, b ++ [rs ++ [l]], by simp, h1, h2⟩, rfl⟩
      | cons c cs =>
        simp only [RendersAll] at hch
        obtain ⟨x, xs, rfl, hx, hxs⟩ := hch
        obtain ⟨ck, ct, cd, cn, cc⟩ := c
        obtain ⟨xk, xt, xd, xm, xc⟩ := x
        simp only [Renders, Node.kind, Node.text, Node.data, Node.sourceMap, Node.children] at hx
        obtain ⟨rfl, rfl, rfl, hxm, hxc⟩ := hx
        have keep : xm ≠ [] → ∀ len' : Option (List Range), First src.length (notes ++ [rs ++ [l]]) len' →
            OwnMap src len' xt cn xm →
            Renders src none (Tree.note (.mk .item text' data' notes (.mk xk xt xd cn cc :: cs)) (rs ++ [l]))
              (share src (rs ++ [l]) front (.mk .item text' data' (append map work) (.mk xk xt xd xm xc :: xs))) := by
          intro hne len' hfst ho
          have : xm.isEmpty = false := by cases xm <;> simp_all
          simp only [share, Node.kind, Node.children, Node.sourceMap, this, Bool.false_eq_true, ↓reduceIte, Tree.note, Renders, Node.text,
            Node.data, true_and]
          exact ⟨hown none, len', hfst, by
            simp only [RendersAll]
            exact ⟨_, xs, rfl, by simp only [Renders, Node.kind, Node.text, Node.data, Node.sourceMap, Node.children]; exact ⟨trivial, trivial, trivial, ho, hxc⟩, hxs⟩⟩
        cases lender with
        | some q =>
          obtain ⟨a, b, rfl, h1, h2⟩ := hlend
          refine keep ?_ (some q) ⟨a, b ++ [rs ++ [l]], by simp, h1, h2⟩ hxm
          rcases hxm with ⟨_, hne, _⟩ | ⟨_, hb⟩
          · exact hne
          · simp only at hb
            rcases hb with ⟨_, _, _, _, _, _, rfl⟩ | ⟨_, rfl, h⟩
            · simp
            · exact h
        | none =>
          have hfst : First src.length (notes ++ [rs ++ [l]]) (some (rs ++ [l])) := ⟨notes, [], by simp, ha, hlend⟩
          rcases hxm with ⟨h1, hne, h2⟩ | ⟨hall, hb⟩
          · exact keep hne _ hfst (.inl ⟨h1, hne, h2⟩)
          · simp only at hb
            subst hb
            simp only [share, Node.kind, Node.children, Node.sourceMap, List.isEmpty_nil, ↓reduceIte, Node.text, Node.setMap, append_nil_left]
            have build : ∀ map', Borrowed src (rs ++ [l]) xt map' →
                Renders src none (Tree.note (.mk .item text' data' notes (.mk xk xt xd cn cc :: cs)) (rs ++ [l]))
                  (.mk .item text' data' (append map work) (.mk xk xt xd map' xc :: xs)) := by
              intro map' hb
              simp only [Tree.note, Renders, Node.kind, Node.text, Node.data, Node.sourceMap, Node.children, true_and]
              refine ⟨hown none, some (rs ++ [l]), hfst, ?_⟩
              simp only [RendersAll]
              exact ⟨_, xs, rfl, by
                simp only [Renders, Node.kind, Node.text, Node.data, Node.sourceMap, Node.children]
                exact ⟨trivial, trivial, trivial, .inr ⟨hall, hb⟩, hxc⟩, hxs⟩
            cases hfi : find (mapBytesRangeSet (rs ++ [l]) src) xt with
            | some pos =>
              simp only [Node.setChildren]
              refine build _ (.inl ?_)
              obtain ⟨a, b, h1, rfl, h3⟩ := find_some hfi
              exact ⟨a, b, front, h1, h3, hf, rfl⟩
            | none =>
              simp only [Node.setChildren]
              exact build _ (.inr ⟨find_none hfi, rfl, by simp⟩)
    · have hsh : ∀ m' fr, share src m' fr (.mk k' text' data' (append map work) ch) = .mk k' text' data' (append map work) ch := by
        intro m' fr
        unfold share
        cases k' <;> simp_all [Node.kind]
      rw [hsh]
      rw [if_neg hk] at hlend
      subst hlend
      simp only [Tree.note, Renders, Node.kind, Node.text, Node.data, Node.sourceMap, Node.children, true_and]
      exact ⟨hown none, none, by rw [if_neg hk], hch⟩

theorem renders_leaf (src : Bytes) (k : Kind) (t : Bytes) (d : Int) : Renders src none (.mk k t d [] []) (.mk k t d [] []) := by
  simp only [Renders, Node.kind, Node.text, Node.data, Node.sourceMap, Node.children, true_and]
  refine ⟨.inr ⟨by simp, rfl⟩, none, ?_, by simp [RendersAll]⟩
  split
  · simp [First]
  · rfl

theorem renders_block (src : Bytes) (k : Kind) (t : Bytes) (d : Int) (cs : List Tree) (ns : List Node) (h : RendersAll src none cs ns) :
    Renders src none (.mk k t d [] cs) (.mk k t d [] ns) := by
  simp only [Renders, Node.kind, Node.text, Node.data, Node.sourceMap, Node.children, true_and]
  refine ⟨.inr ⟨by simp, rfl⟩, none, ?_, h⟩
  split
  · simp [First]
  · rfl

theorem renders_kind {src lender t n} (h : Renders src lender t n) : n.kind = t.kind := by
  obtain ⟨k, text, data, notes, cs⟩ := t
  simp only [Renders] at h
  exact h.1

theorem setChildren_setChildren (n : Node) (a b : List Node) : (n.setChildren a).setChildren b = n.setChildren b := by cases n; rfl
theorem children_setChildren (n : Node) (a : List Node) : (n.setChildren a).children = a := by cases n; rfl
theorem setChildren_children (n : Node) : n.setChildren n.children = n := by cases n; rfl

theorem run_described (src : Bytes) {es : List Event} {ts : List Tree} (h : Describes es ts)
    (hs : ∀ m, Event.parsed m ∈ es → Sane src.length m) : ∀ w anc, w.children = [] →
    ∃ ns, run src ⟨w, anc, false⟩ es = .ok ⟨w.setChildren ns, anc, false⟩ ∧ RendersAll src none ts ns := by
  induction h with
  | nil =>
    intro w anc hw
    exact ⟨[], by rw [← hw, setChildren_children]; rfl, by simp [RendersAll]⟩
  | @leaf es ts e k t d _ hl ih =>
    intro w anc hw
    obtain ⟨ns, hr, hn⟩ := ih (fun m hm => hs m (by simp [hm])) w anc hw
    refine ⟨ns ++ [.mk k t d [] []], ?_, (rendersAll_snoc _ _ _ _).2 ⟨ns, _, rfl, hn, renders_leaf _ _ _ _⟩⟩
    rw [run_append, hr]
    cases hl <;> simp [Except.bind, run, step, State.leaf, Node.push, children_setChildren, setChildren_setChildren]
  | @quote es ts inner cs text _ _ ih1 ih2 =>
    intro w anc hw
    obtain ⟨ns, hr, hn⟩ := ih1 (fun m hm => hs m (by simp [hm])) w anc hw
    obtain ⟨ns', hr', hn'⟩ := ih2 (fun m hm => hs m (by simp [hm])) (.mk .quote [] 0 [] []) (w.setChildren ns :: anc) rfl
    refine ⟨ns ++ [.mk .quote text 0 [] ns'], ?_, (rendersAll_snoc _ _ _ _).2 ⟨ns, _, rfl, hn, renders_block _ _ _ _ _ _ hn'⟩⟩
    rw [run_append, hr]
    simp only [Except.bind, List.cons_append, run, step, State.down]
    rw [run_append, hr']
    simp [Except.bind, run, step, State.up, Node.kind, Node.setChildren, Node.setText, Node.push, children_setChildren, setChildren_setChildren]
    cases w; rfl
  | @item es ts inner cs f text flags _ _ ih1 ih2 =>
    intro w anc hw
    obtain ⟨ns, hr, hn⟩ := ih1 (fun m hm => hs m (by simp [hm])) w anc hw
    obtain ⟨ns', hr', hn'⟩ := ih2 (fun m hm => hs m (by simp [hm])) (.mk .item [] f [] []) (w.setChildren ns :: anc) rfl
    have key : ∃ ns'', RendersAll src none (withParagraph text cs) ns'' ∧
        step src ⟨(Node.mk .item [] f [] []).setChildren ns', w.setChildren ns :: anc, false⟩ (.item text flags) =
          .ok ⟨w.setChildren (ns ++ [.mk .item [] flags [] ns'']), anc, false⟩ := by
      cases cs with
      | nil =>
        simp only [RendersAll] at hn'
        subst hn'
        refine ⟨[.mk .paragraph text 0 [] []], ?_, ?_⟩
        · simp only [withParagraph, RendersAll]
          exact ⟨_, [], rfl, renders_leaf _ _ _ _, rfl⟩
        · simp [step, Node.setChildren, Node.kind, Node.children, Node.setData, State.up, Node.push]
          cases w; rfl
      | cons c cs =>
        simp only [RendersAll] at hn'
        obtain ⟨x, xs, rfl, hx, hxs⟩ := hn'
        have hk := renders_kind hx
        by_cases hp : c.kind = .paragraph
        · refine ⟨x :: xs, ?_, ?_⟩
          · simp only [withParagraph, hp, ↓reduceIte, RendersAll]
            exact ⟨_, _, rfl, hx, hxs⟩
          · rw [hp] at hk
            simp [step, Node.setChildren, Node.kind, Node.children, Node.setData, State.up, Node.push]
            simp only [Node.kind] at hk
            simp only [hk]
            cases w; rfl
        · refine ⟨.mk .paragraph text 0 [] [] :: x :: xs, ?_, ?_⟩
          · simp only [withParagraph, hp, ↓reduceIte, RendersAll]
            exact ⟨_, _, rfl, renders_leaf _ _ _ _, x, xs, rfl, hx, hxs⟩
          · rw [← hk] at hp
            simp only [step, Node.setChildren, Node.kind, Node.children, Node.setData, State.up, Node.push, ne_eq, not_true_eq_false, ↓reduceIte]
            simp only [Node.kind] at hp
            simp only [hp, not_false_eq_true, ↓reduceIte]
            cases w; rfl
    obtain ⟨ns'', hn'', hst⟩ := key
    refine ⟨ns ++ [.mk .item [] flags [] ns''], ?_, (rendersAll_snoc _ _ _ _).2 ⟨ns, _, rfl, hn, renders_block _ _ _ _ _ _ hn''⟩⟩
    rw [run_append, hr]
    simp only [Except.bind, List.cons_append, run]
    simp only [step, State.down]
    rw [run_append, hr']
    simp only [Except.bind, run, hst]
  | @beginList es ts f _ ih =>
    intro w anc hw
    obtain ⟨ns, hr, hn⟩ := ih (fun m hm => hs m (by simp [hm])) w anc hw
    exact ⟨ns, by rw [run_append, hr]; rfl, hn⟩
  | @list es ts text f m _ ih =>
    intro w anc hw
    obtain ⟨ns, hr, hn⟩ := ih (fun m hm => hs m (by simp [hm])) w anc hw
    exact ⟨ns, by rw [run_append, hr]; simp [Except.bind, run, step, didParse], hn⟩
  | @note es ts t m _ ih =>
    intro w anc hw
    obtain ⟨ns, hr, hn⟩ := ih (fun m hm => hs m (by simp [hm])) w anc hw
    obtain ⟨xs, x, rfl, h1, h2⟩ := (rendersAll_snoc _ _ _ _).1 hn
    have hm := hs m (by simp)
    obtain ⟨rs, last, rfl, hl, hrs⟩ := id hm
    obtain ⟨front, hf⟩ : ∃ front, (rs ++ [last]).head? = some front := by cases rs <;> simp
    have := renders_note h2 hm front hf last (by simp)
    rw [run_append, hr]
    simp only [Except.bind, run, step, didParse, Bool.false_eq_true, ↓reduceIte, children_setChildren, List.getLast?_append,
      List.getLast?_singleton, Option.some_or, hf, List.dropLast_concat, setChildren_setChildren]
    cases hrec : recorded src.length (rs ++ [last]) last with
    | none =>
      rw [hrec] at this
      exact ⟨_, rfl, (rendersAll_snoc _ _ _ _).2 ⟨xs, x, rfl, h1, this⟩⟩
    | some work =>
      rw [hrec] at this
      exact ⟨_, rfl, (rendersAll_snoc _ _ _ _).2 ⟨xs, _, rfl, h1, this⟩⟩
  | @unused es m _ ih =>
    intro w anc hw
    obtain ⟨ns, hr, hn⟩ := ih (fun m hm => hs m (by simp [hm])) w anc hw
    simp only [RendersAll] at hn
    subst hn
    exact ⟨[], by rw [run_append, hr]; simp [Except.bind, run, step, didParse, children_setChildren], by simp [RendersAll]⟩

end Verif.Markdown
