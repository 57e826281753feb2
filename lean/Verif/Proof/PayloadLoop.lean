import Verif.Model.Payload

/-! # The loops of the section parser over blocks that are taken one by one -/

namespace Verif.Payload
open Verif Verif.Text Verif.Section Verif.Recognition

variable {σ : Type}

/-- One step, at `i`, that gives that data. -/
def outcome (i : Nat) (ctx : List SectionType) : Except Stop σ → Except Stop (Nat × PD σ)
  | .error e => .error e
  | .ok d => .ok (i + 1, ⟨ctx, d⟩)

/-- `lastSectionType` after a node (S/SectionParser.h:125-131). -/
def lastOf (ty : Node → SectionType) (n : Node) (rest : List Node) (last : SectionType) : SectionType :=
  if rest ≠ [] ∧ (ty n ≠ .undefined ∨ isText rest.head? = false) then ty n else last

/-- The loop over nested sections, by recursion on the blocks. -/
def loop (f : Node → SectionType → σ → Except Stop σ) (ty : Node → SectionType) :
    List Node → SectionType → σ → Except Stop σ
  | [], _, d => .ok d
  | n :: ns, last, d =>
    match f n last d with
    | .error e => .error e
    | .ok d' => loop f ty ns (lastOf ty n ns last) d'

/-- One block after the other. -/
def steps (g : Node → σ → Except Stop σ) : List Node → σ → Except Stop σ
  | [], d => .ok d
  | n :: ns, d =>
    match g n d with
    | .error e => .error e
    | .ok d' => steps g ns d'

theorem drop_cons {ns : List Node} {cur : Nat} {n : Node} (h : ns[cur]? = some n) :
    ns.drop cur = n :: ns.drop (cur + 1) := by
  obtain ⟨hl, rfl⟩ := List.getElem?_eq_some_iff.mp h
  exact List.drop_eq_getElem_cons hl

theorem nestedLoop_eq {o : Own σ} {skips : Bool} {child : SectionType → Parse σ} {ns : List Node}
    {ctx : List SectionType} {f : Node → SectionType → σ → Except Stop σ}
    (h : ∀ cur n last d, ns[cur]? = some n →
      nestedStep o skips child ns n cur last ⟨o.nestedType n :: ctx, d⟩ =
        outcome cur (o.nestedType n :: ctx) (f n last d)) :
    ∀ fuel cur last d, cur ≤ ns.length → ns.length - cur = fuel →
      nestedLoop o skips child ns fuel cur last ⟨ctx, d⟩ =
        match loop f o.nestedType (ns.drop cur) last d with
        | .error e => .error e
        | .ok d' => .ok (ns.length, ⟨ctx, d'⟩) := by
  intro fuel
  induction fuel with
  | zero =>
    intro cur last d hc hf
    have : cur = ns.length := by omega
    subst this
    rw [nestedLoop]; simp [loop]
  | succ fuel ih =>
    intro cur last d hc hf
    have hl : cur < ns.length := by omega
    have hn : ns[cur]? = some ns[cur] := List.getElem?_eq_getElem hl
    rw [nestedLoop, hn]
    simp only
    rw [h cur _ last d hn, drop_cons hn, loop]
    cases hf' : f ns[cur] last d with
    | error e => rfl
    | ok d' =>
      simp only [outcome]
      rw [if_neg (by omega), List.tail_cons, ih (cur + 1) _ d' (by omega) (by omega)]
      have : (if cur + 1 ≠ ns.length ∧ ((⟨o.nestedType ns[cur] :: ctx, d'⟩ : PD σ).top ≠ .undefined ∨ isText ns[cur + 1]? = false)
          then (⟨o.nestedType ns[cur] :: ctx, d'⟩ : PD σ).top else last) =
          lastOf o.nestedType ns[cur] (ns.drop (cur + 1)) last := by
        unfold lastOf
        have h1 : (ns.drop (cur + 1)).head? = ns[cur + 1]? := by simp [List.head?_drop]
        have h2 : (ns.drop (cur + 1) ≠ []) ↔ cur + 1 ≠ ns.length := by
          rw [ne_eq, List.drop_eq_nil_iff]; omega
        rw [h1]
        simp only [h2]
        rfl
      rw [this]

theorem phase_eq {is : Node → SectionType → Bool} {step : List Node → Nat → PD σ → Except Stop (Nat × PD σ)}
    {ns : List Node} {ctx : List SectionType} {g : Node → σ → Except Stop σ} {top : SectionType}
    (ht : ∀ d : σ, (⟨ctx, d⟩ : PD σ).top = top)
    (h : ∀ cur n d, ns[cur]? = some n → is n top = true → step ns cur ⟨ctx, d⟩ = outcome cur ctx (g n d)) :
    ∀ fuel cur d, cur ≤ ns.length → ns.length - cur = fuel →
      phase is step ns fuel cur ⟨ctx, d⟩ =
        match steps g ((ns.drop cur).takeWhile (is · top)) d with
        | .error e => .error e
        | .ok d' => .ok (cur + ((ns.drop cur).takeWhile (is · top)).length, ⟨ctx, d'⟩, true) := by
  intro fuel
  induction fuel with
  | zero =>
    intro cur d hc hf
    have : cur = ns.length := by omega
    subst this
    rw [phase]; simp [steps]
  | succ fuel ih =>
    intro cur d hc hf
    have hl : cur < ns.length := by omega
    have hn : ns[cur]? = some ns[cur] := List.getElem?_eq_getElem hl
    rw [phase, hn]
    simp only [ht]
    rw [drop_cons hn, List.takeWhile_cons]
    by_cases hi : is ns[cur] top = true
    · rw [if_pos hi, if_pos hi, h cur _ d hn hi, steps]
      cases hf' : g ns[cur] d with
      | error e => rfl
      | ok d' =>
        simp only [outcome]
        rw [if_neg (by omega), ih (cur + 1) d' (by omega) (by omega)]
        simp only [List.length_cons]
        cases steps g ((ns.drop (cur + 1)).takeWhile (is · top)) d' with
        | error e => rfl
        | ok d'' => simp only [Except.ok.injEq, Prod.mk.injEq, and_true]; omega
    · rw [if_neg hi, if_neg hi]; simp [steps]

theorem one_eq {f : Node → PD σ → Except Stop σ} {ns : List Node} {i : Nat} {n : Node} {pd : PD σ}
    (h : ns[i]? = some n) : one f ns i pd = outcome i pd.context (f n pd) := by
  unfold one
  rw [h]
  simp only
  cases f n pd <;> rfl

theorem firstMapped_lt {ns : List Node} (h : ns ≠ []) : firstMapped ns < ns.length := by
  unfold firstMapped
  simp only
  split
  · assumption
  · exact List.length_pos_iff.mpr h

/-- What is read of a list item: its blocks from the first that has a source on. -/
def read (n : Node) : List Node := n.children.drop (firstMapped n.children)

/-! ## The parser of a list item -/

/-- A section of a list item whose blocks are all taken one by one. -/
def itemResult (sg : Node → σ → Except Stop σ) (isD : Node → Bool) (ds : Node → σ → Except Stop σ) (isC : Node → Bool)
    (cs : Node → σ → Except Stop σ) (f : Node → SectionType → σ → Except Stop σ) (ty : Node → SectionType)
    (fin : σ → σ) (sig : Node) (blocks : List Node) (d : σ) : Except Stop σ :=
  match sg sig d with
  | .error e => .error e
  | .ok d =>
    match steps ds (blocks.takeWhile isD) d with
    | .error e => .error e
    | .ok d =>
      match steps cs ((blocks.dropWhile isD).takeWhile isC) d with
      | .error e => .error e
      | .ok d =>
        match loop f ty ((blocks.dropWhile isD).dropWhile isC) .undefined d with
        | .error e => .error e
        | .ok d => .ok (fin d)

theorem drop_takeWhile_length {α : Type} (p : α → Bool) (l : List α) :
    l.drop (l.takeWhile p).length = l.dropWhile p := by
  induction l with
  | nil => rfl
  | cons a l ih =>
    rw [List.takeWhile_cons, List.dropWhile_cons]
    split
    · simpa using ih
    · rfl

theorem takeWhile_length_le {α : Type} (p : α → Bool) (l : List α) : (l.takeWhile p).length ≤ l.length :=
  (List.takeWhile_sublist p).length_le

theorem parse_item {o : Own σ} {child : SectionType → Parse σ} {siblings : List Node} {i : Nat} {n sig : Node}
    {blocks : List Node} {ctx : List SectionType} {top : SectionType} {sg ds cs : Node → σ → Except Stop σ}
    {f : Node → SectionType → σ → Except Stop σ} {fin : σ → σ} (d : σ)
    (hi : siblings[i]? = some n) (hk : n.kind = .listItem) (hr : read n = sig :: blocks)
    (ht : ∀ d : σ, (⟨ctx, d⟩ : PD σ).top = top)
    (hsg : ∀ ns j m d, ns[j]? = some m → o.signature ns j ⟨ctx, d⟩ =
      match sg m d with
      | .error e => .error e
      | .ok d' => .ok (.done (j + 1) .default ⟨ctx, d'⟩))
    (hds : ∀ ns j m d, ns[j]? = some m → o.isDescription m top = true → o.description ns j ⟨ctx, d⟩ = outcome j ctx (ds m d))
    (hcs : ∀ ns j m d, ns[j]? = some m → o.isContent m top = true → o.content ns j ⟨ctx, d⟩ = outcome j ctx (cs m d))
    (hpre : ∀ ns j d, o.preprocess ns j ⟨ctx, d⟩ = .ok ⟨ctx, d⟩)
    (hf : ∀ ns j m last d, ns[j]? = some m → nestedStep o true child ns m j last ⟨o.nestedType m :: ctx, d⟩ =
        outcome j (o.nestedType m :: ctx) (f m last d))
    (hfin : ∀ ns j d, o.finalize ns j ⟨ctx, d⟩ = .ok ⟨ctx, fin d⟩) :
    parseSection o .list child siblings i ⟨ctx, d⟩ =
      outcome i ctx (itemResult sg (o.isDescription · top) ds (o.isContent · top) cs f o.nestedType fin sig blocks d) := by
  have hlt : i < siblings.length := (List.getElem?_eq_some_iff.mp hi).1
  unfold read at hr
  have hne : n.children ≠ [] := by
    intro h; rw [h] at hr; simp at hr
  have hs : n.children[firstMapped n.children]? = some sig := by
    rw [← List.head?_drop, hr]; rfl
  have hb : blocks = n.children.drop (firstMapped n.children + 1) := by
    have := drop_cons hs
    rw [hr] at this
    exact (List.cons.inj this).2
  have hle : firstMapped n.children + 1 ≤ n.children.length := firstMapped_lt hne
  have hnext : ∀ cur, Adapter.next .list siblings i cur = i + 1 := by
    intro cur; simp only [Adapter.next]; rw [if_neg (by omega)]
  unfold parseSection Adapter.start
  simp only [hi, if_pos hk]
  rw [hsg _ _ _ _ hs]
  unfold itemResult
  cases sg sig d with
  | error e => rfl
  | ok d₁ =>
    simp only
    unfold body
    rw [if_neg (by omega), phase_eq ht (hds n.children) _ _ _ hle rfl, ← hb]
    cases steps ds (blocks.takeWhile (o.isDescription · top)) d₁ with
    | error e => rfl
    | ok d₂ =>
      simp only
      have l1 := takeWhile_length_le (o.isDescription · top) blocks
      have hbl : blocks.length = n.children.length - (firstMapped n.children + 1) := by rw [hb, List.length_drop]
      have e1 : n.children.drop (firstMapped n.children + 1 + (blocks.takeWhile (o.isDescription · top)).length) =
          blocks.dropWhile (o.isDescription · top) := by
        rw [← List.drop_drop, ← hb, drop_takeWhile_length]
      rw [phase_eq ht (hcs n.children) _ _ _ (by omega) rfl, e1]
      cases steps cs ((blocks.dropWhile (o.isDescription · top)).takeWhile (o.isContent · top)) d₂ with
      | error e => rfl
      | ok d₃ =>
        simp only
        have l2 := takeWhile_length_le (o.isContent · top) (blocks.dropWhile (o.isDescription · top))
        have l3 : (blocks.dropWhile (o.isDescription · top)).length =
            blocks.length - (blocks.takeWhile (o.isDescription · top)).length := by
          rw [← drop_takeWhile_length, List.length_drop]
        have e2 : n.children.drop (firstMapped n.children + 1 + (blocks.takeWhile (o.isDescription · top)).length +
            ((blocks.dropWhile (o.isDescription · top)).takeWhile (o.isContent · top)).length) =
            (blocks.dropWhile (o.isDescription · top)).dropWhile (o.isContent · top) := by
          rw [← List.drop_drop, e1, drop_takeWhile_length]
        unfold closing parseNested
        simp only [hpre, Adapter.skips]
        rw [nestedLoop_eq (hf n.children) _ _ _ _ (by omega) rfl, e2]
        cases loop f o.nestedType ((blocks.dropWhile (o.isDescription · top)).dropWhile (o.isContent · top)) .undefined d₃ with
        | error e => rfl
        | ok d₄ => simp only [hfin, hnext]; rfl

end Verif.Payload
