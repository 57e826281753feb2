import Verif.Proof.HeaderLoop

/-! # The section parser on headers with sections of several blocks -/

namespace Verif.Payload
open Verif Verif.Text Verif.Section Verif.Recognition

variable {σ : Type}

/-- The loop over nested sections that take as many blocks as they like: the blocks that are left. -/
def run (F : Node → List Node → SectionType → σ → Except Stop (List Node × σ)) (ty : Node → SectionType) (go : Node → Bool) :
    Nat → List Node → SectionType → σ → Except Stop (List Node × σ)
  | 0, ns, _, d => .ok (ns, d)
  | _ + 1, [], _, d => .ok ([], d)
  | fuel + 1, n :: ns, last, d =>
    if go n then
      match F n ns last d with
      | .error e => .error e
      | .ok (rest, d') => run F ty go fuel rest (lastOf ty n rest last) d'
    else .ok (n :: ns, d)

/-- The position of the blocks that are left. -/
def landing (ns : List Node) (ctx : List SectionType) : Except Stop (List Node × σ) → Except Stop (Nat × PD σ)
  | .error e => .error e
  | .ok (rest, d) => .ok (ns.length - rest.length, ⟨ctx, d⟩)

theorem drop_landing {ns rest : List Node} (h : rest <:+ ns) : ns.drop (ns.length - rest.length) = rest :=
  (List.suffix_iff_eq_drop.mp h).symm

theorem run_suffix {F : Node → List Node → SectionType → σ → Except Stop (List Node × σ)} {ty : Node → SectionType} {go : Node → Bool}
    (hF : ∀ n ns last d rest d', F n ns last d = .ok (rest, d') → rest <:+ ns) :
    ∀ fuel ns last d rest d', run F ty go fuel ns last d = .ok (rest, d') → rest <:+ ns := by
  intro fuel
  induction fuel with
  | zero =>
    intro ns last d rest d' h
    rw [run] at h
    cases h; exact List.suffix_rfl
  | succ fuel ih =>
    intro ns last d rest d' h
    cases ns with
    | nil => rw [run] at h; cases h; exact List.suffix_rfl
    | cons n ns =>
      rw [run] at h
      split at h
      · cases hf : F n ns last d with
        | error e => rw [hf] at h; cases h
        | ok x =>
          obtain ⟨r, d₁⟩ := x
          rw [hf] at h
          exact ((ih _ _ _ _ _ h).trans (hF _ _ _ _ _ _ hf)).trans (List.suffix_cons n ns)
      · cases h; exact List.suffix_rfl

theorem nestedLoop_run {o : Own σ} {skips : Bool} {child : SectionType → Parse σ} {ns : List Node} {go : Node → Bool}
    {ctx : List SectionType} {F : Node → List Node → SectionType → σ → Except Stop (List Node × σ)}
    (h : ∀ cur n last d, ns[cur]? = some n → go n = true →
      nestedStep o skips child ns n cur last ⟨o.nestedType n :: ctx, d⟩ = landing ns (o.nestedType n :: ctx) (F n (ns.drop (cur + 1)) last d))
    (hF : ∀ n ns last d rest d', F n ns last d = .ok (rest, d') → rest <:+ ns)
    (hs : ∀ cur n last d, ns[cur]? = some n → go n = false →
      nestedStep o skips child ns n cur last ⟨o.nestedType n :: ctx, d⟩ = .ok (cur, ⟨o.nestedType n :: ctx, d⟩)) :
    ∀ fuel cur last d, cur ≤ ns.length → ns.length - cur ≤ fuel →
      nestedLoop o skips child ns fuel cur last ⟨ctx, d⟩ = landing ns ctx (run F o.nestedType go fuel (ns.drop cur) last d) := by
  intro fuel
  induction fuel with
  | zero =>
    intro cur last d hc hf
    have : cur = ns.length := by omega
    subst this
    rw [nestedLoop]; simp [run, landing]
  | succ fuel ih =>
    intro cur last d hc hf
    by_cases hl : cur = ns.length
    · subst hl
      rw [nestedLoop]; simp [run, landing]
    have hl : cur < ns.length := by omega
    have hn : ns[cur]? = some ns[cur] := List.getElem?_eq_getElem hl
    rw [nestedLoop, hn]
    simp only
    rw [drop_cons hn, run]
    cases hg : go ns[cur] with
    | false =>
      rw [hs cur _ last d hn hg]
      simp only [List.tail_cons, if_true, Bool.false_eq_true, if_false, landing, List.length_cons, List.length_drop]
      congr 2
      omega
    | true =>
      rw [h cur _ last d hn hg]
      simp only [if_true]
      cases hf' : F ns[cur] (ns.drop (cur + 1)) last d with
      | error e => rfl
      | ok x =>
        obtain ⟨rest, d'⟩ := x
        have hsuf := hF _ _ _ _ _ _ hf'
        have hlen : rest.length ≤ ns.length - (cur + 1) := by have := hsuf.length_le; rwa [List.length_drop] at this
        have hsuf' : rest <:+ ns := hsuf.trans (List.drop_suffix _ _)
        simp only [landing]
        rw [if_neg (by omega), List.tail_cons, ih _ _ d' (by omega) (by omega), drop_landing hsuf']
        have : (if ns.length - rest.length ≠ ns.length ∧ ((⟨o.nestedType ns[cur] :: ctx, d'⟩ : PD σ).top ≠ .undefined ∨ isText ns[ns.length - rest.length]? = false)
            then (⟨o.nestedType ns[cur] :: ctx, d'⟩ : PD σ).top else last) = lastOf o.nestedType ns[cur] rest last := by
          unfold lastOf
          have h1 : rest.head? = ns[ns.length - rest.length]? := by
            have := congrArg List.head? (drop_landing hsuf')
            rw [List.head?_drop] at this
            exact this.symm
          have h2 : (rest ≠ []) ↔ ns.length - rest.length ≠ ns.length := by
            rw [ne_eq, ← List.length_eq_zero_iff]; omega
          rw [h1]
          simp only [h2]
          rfl
        rw [this]
        rfl

/-- What is read of a header once its signature was: the blocks of the description and the sections. -/
def runResult (isD : Node → Bool) (ds : Node → σ → Except Stop σ) (F : Node → List Node → SectionType → σ → Except Stop (List Node × σ))
    (ty : Node → SectionType) (go : Node → Bool) (fin : σ → σ) (blocks : List Node) (d : σ) : Except Stop (List Node × σ) :=
  match steps ds (blocks.takeWhile isD) d with
  | .error e => .error e
  | .ok d =>
    match run F ty go (blocks.dropWhile isD).length (blocks.dropWhile isD) .undefined d with
    | .error e => .error e
    | .ok (rest, d) => .ok (rest, fin d)

theorem closing_run {o : Own σ} {a : Adapter} {child : SectionType → Parse σ} {siblings : List Node} {i cur : Nat}
    {ctx : List SectionType} {go : Node → Bool} {F : Node → List Node → SectionType → σ → Except Stop (List Node × σ)} {fin : σ → σ} {d d₁ : σ}
    (hsk : a.skips = false) (hnx : ∀ ns i j, a.next ns i j = j) (hcur : cur ≤ siblings.length)
    (hpre : o.preprocess siblings cur ⟨ctx, d⟩ = .ok ⟨ctx, d₁⟩)
    (hf : ∀ j m last d, siblings[j]? = some m → go m = true → nestedStep o false child siblings m j last ⟨o.nestedType m :: ctx, d⟩ =
        landing siblings (o.nestedType m :: ctx) (F m (siblings.drop (j + 1)) last d))
    (hF : ∀ n ns last d rest d', F n ns last d = .ok (rest, d') → rest <:+ ns)
    (hs : ∀ j m last d, siblings[j]? = some m → go m = false → nestedStep o false child siblings m j last ⟨o.nestedType m :: ctx, d⟩ =
        .ok (j, ⟨o.nestedType m :: ctx, d⟩))
    (hfin : ∀ ns j d, o.finalize ns j ⟨ctx, d⟩ = .ok ⟨ctx, fin d⟩) :
    closing o a child siblings i siblings cur ⟨ctx, d⟩ =
      landing siblings ctx (match run F o.nestedType go (siblings.drop cur).length (siblings.drop cur) .undefined d₁ with
        | .error e => .error e
        | .ok (rest, d) => .ok (rest, fin d)) := by
  unfold closing parseNested
  simp only [hpre, hsk]
  rw [nestedLoop_run hf hF hs _ _ _ _ hcur (by omega), List.length_drop]
  cases run F o.nestedType go (siblings.length - cur) (siblings.drop cur) .undefined d₁ with
  | error e => rfl
  | ok x => obtain ⟨rest, d'⟩ := x; simp only [landing, hfin, hnx]

theorem body_run {o : Own σ} {a : Adapter} {child : SectionType → Parse σ} {siblings : List Node} {i start cur : Nat}
    {ctx : List SectionType} {top : SectionType} {ds : Node → σ → Except Stop σ} {go : Node → Bool}
    {F : Node → List Node → SectionType → σ → Except Stop (List Node × σ)} {fin : σ → σ} (d : σ)
    (hsk : a.skips = false) (hnx : ∀ ns i j, a.next ns i j = j) (hcur : cur ≤ siblings.length) (hne : cur ≠ start)
    (ht : ∀ d : σ, (⟨ctx, d⟩ : PD σ).top = top)
    (hds : ∀ j m d, siblings[j]? = some m → o.isDescription m top = true → o.description siblings j ⟨ctx, d⟩ = outcome j ctx (ds m d))
    (hc : ∀ m, o.isContent m top = false)
    (hpre : ∀ j d, o.preprocess siblings j ⟨ctx, d⟩ = .ok ⟨ctx, d⟩)
    (hf : ∀ j m last d, siblings[j]? = some m → go m = true → nestedStep o false child siblings m j last ⟨o.nestedType m :: ctx, d⟩ =
        landing siblings (o.nestedType m :: ctx) (F m (siblings.drop (j + 1)) last d))
    (hF : ∀ n ns last d rest d', F n ns last d = .ok (rest, d') → rest <:+ ns)
    (hs : ∀ j m last d, siblings[j]? = some m → go m = false → nestedStep o false child siblings m j last ⟨o.nestedType m :: ctx, d⟩ =
        .ok (j, ⟨o.nestedType m :: ctx, d⟩))
    (hfin : ∀ ns j d, o.finalize ns j ⟨ctx, d⟩ = .ok ⟨ctx, fin d⟩) :
    body o a child siblings i siblings start cur ⟨ctx, d⟩ =
      landing siblings ctx (runResult (o.isDescription · top) ds F o.nestedType go fin (siblings.drop cur) d) := by
  unfold body runResult
  rw [if_neg hne, phase_eq ht hds _ _ _ hcur rfl]
  cases steps ds ((siblings.drop cur).takeWhile (o.isDescription · top)) d with
  | error e => rfl
  | ok d₂ =>
    simp only
    have hph : ∀ fuel cur, phase o.isContent o.content siblings fuel cur ⟨ctx, d₂⟩ = .ok (cur, ⟨ctx, d₂⟩, true) := by
      intro fuel cur
      rw [phase.eq_def]
      cases hcur : siblings[cur]? with
      | none => simp only [hcur]
      | some m => simp [hcur, ht, hc]
    rw [hph]
    have l1 := takeWhile_length_le (o.isDescription · top) (siblings.drop cur)
    rw [List.length_drop] at l1
    have := closing_run (o := o) (a := a) (child := child) (siblings := siblings) (i := i)
      (cur := cur + ((siblings.drop cur).takeWhile (o.isDescription · top)).length) (ctx := ctx) (go := go) (F := F) (fin := fin) (d := d₂)
      (d₁ := d₂) hsk hnx (by omega) (hpre _ _) hf hF hs hfin
    simp only
    rw [this, ← List.drop_drop, drop_takeWhile_length]

end Verif.Payload
