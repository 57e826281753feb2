import Verif.Proof.PayloadLoop

/-! # The section parser on headers whose blocks are taken one by one, up to one at which the section ends -/

namespace Verif.Payload
open Verif Verif.Text Verif.Section Verif.Recognition

variable {σ : Type}

theorem lastOf_take {ty : Node → SectionType} {n : Node} {go : Node → Bool} {rest : List Node} {last : SectionType}
    (h : rest.takeWhile go ≠ []) : lastOf ty n rest last = lastOf ty n (rest.takeWhile go) last := by
  cases rest with
  | nil => exact absurd rfl h
  | cons m ms =>
    rw [List.takeWhile_cons] at h ⊢
    split
    · simp [lastOf]
    · rename_i hg; rw [if_neg hg] at h; exact absurd rfl h

theorem loop_last {f : Node → SectionType → σ → Except Stop σ} {ty : Node → SectionType} {n : Node} {go : Node → Bool} {rest : List Node}
    {last : SectionType} {d : σ} :
    loop f ty (rest.takeWhile go) (lastOf ty n rest last) d = loop f ty (rest.takeWhile go) (lastOf ty n (rest.takeWhile go) last) d := by
  by_cases h : rest.takeWhile go = []
  · rw [h]; rfl
  · rw [lastOf_take h]

theorem nestedLoop_until {o : Own σ} {skips : Bool} {child : SectionType → Parse σ} {ns : List Node} {go : Node → Bool}
    {ctx : List SectionType} {f : Node → SectionType → σ → Except Stop σ}
    (h : ∀ cur n last d, ns[cur]? = some n → go n = true →
      nestedStep o skips child ns n cur last ⟨o.nestedType n :: ctx, d⟩ =
        outcome cur (o.nestedType n :: ctx) (f n last d))
    (hs : ∀ cur n last d, ns[cur]? = some n → go n = false →
      nestedStep o skips child ns n cur last ⟨o.nestedType n :: ctx, d⟩ = .ok (cur, ⟨o.nestedType n :: ctx, d⟩)) :
    ∀ fuel cur last d, cur ≤ ns.length → ns.length - cur = fuel →
      nestedLoop o skips child ns fuel cur last ⟨ctx, d⟩ =
        match loop f o.nestedType ((ns.drop cur).takeWhile go) last d with
        | .error e => .error e
        | .ok d' => .ok (cur + ((ns.drop cur).takeWhile go).length, ⟨ctx, d'⟩) := by
  intro fuel
  induction fuel with
  | zero =>
    intro cur last d hc hf
    have : cur = ns.length := by omega
    subst this
    rw [nestedLoop]; simp [loop]
  | succ fuel ih =>
    intro cur last d hc hf
    have hl : cur < ns.length := by omega
    have hn : ns[cur]? = some ns[cur] := List.getElem?_eq_getElem hl
    rw [nestedLoop, hn]
    simp only
    rw [drop_cons hn, List.takeWhile_cons]
    cases hg : go ns[cur] with
    | false =>
      rw [hs cur _ last d hn hg]
      simp [loop]
    | true =>
      rw [h cur _ last d hn hg]
      simp only [if_true, loop]
      cases hf' : f ns[cur] last d with
      | error e => rfl
      | ok d' =>
        simp only [outcome]
        rw [if_neg (by omega), List.tail_cons, ih (cur + 1) _ d' (by omega) (by omega)]
        have : (if cur + 1 ≠ ns.length ∧ ((⟨o.nestedType ns[cur] :: ctx, d'⟩ : PD σ).top ≠ .undefined ∨ isText ns[cur + 1]? = false)
            then (⟨o.nestedType ns[cur] :: ctx, d'⟩ : PD σ).top else last) =
            lastOf o.nestedType ns[cur] (ns.drop (cur + 1)) last := by
          unfold lastOf
          have h1 : (ns.drop (cur + 1)).head? = ns[cur + 1]? := by simp [List.head?_drop]
          have h2 : (ns.drop (cur + 1) ≠ []) ↔ cur + 1 ≠ ns.length := by
            rw [ne_eq, List.drop_eq_nil_iff]; omega
          rw [h1]
          simp only [h2]
          rfl
        rw [this, loop_last]
        simp only [List.length_cons]
        cases loop f o.nestedType ((ns.drop (cur + 1)).takeWhile go) (lastOf o.nestedType ns[cur] ((ns.drop (cur + 1)).takeWhile go) last) d' with
        | error e => rfl
        | ok d'' => simp only [Except.ok.injEq, Prod.mk.injEq, and_true]; omega

/-- What is read of a header: the signature, the blocks of the description, and all blocks up to one at which the section ends. -/
def headerResult (sg : Node → σ → Except Stop σ) (isD : Node → Bool) (ds : Node → σ → Except Stop σ)
    (f : Node → SectionType → σ → Except Stop σ) (ty : Node → SectionType) (fin : σ → σ) (sig : Node) (blocks : List Node) (d : σ) :
    Except Stop σ :=
  match sg sig d with
  | .error e => .error e
  | .ok d =>
    match steps ds (blocks.takeWhile isD) d with
    | .error e => .error e
    | .ok d =>
      match loop f ty (blocks.dropWhile isD) .undefined d with
      | .error e => .error e
      | .ok d => .ok (fin d)

theorem takeWhile_split {α : Type} {p q : α → Bool} {l : List α} (h : ∀ a, p a = true → q a = true) :
    l.takeWhile p = (l.takeWhile q).takeWhile p ∧ (l.dropWhile p).takeWhile q = (l.takeWhile q).dropWhile p := by
  induction l with
  | nil => simp
  | cons a l ih =>
    by_cases hp : p a = true
    · have hq := h a hp
      simp only [List.takeWhile_cons, List.dropWhile_cons, hp, hq, if_true]
      exact ⟨by rw [ih.1], ih.2⟩
    · by_cases hq : q a = true
      · simp [hp, hq, List.dropWhile_cons]
      · simp [hp, hq]

theorem parse_header {o : Own σ} {child : SectionType → Parse σ} {siblings : List Node} {i : Nat} {sig : Node}
    {ctx : List SectionType} {top : SectionType} {sg ds : Node → σ → Except Stop σ} {go : Node → Bool}
    {f : Node → SectionType → σ → Except Stop σ} {fin : σ → σ} (d : σ)
    (hi : siblings[i]? = some sig) (hk : sig.kind = .header)
    (ht : ∀ d : σ, (⟨ctx, d⟩ : PD σ).top = top)
    (hsg : ∀ d, o.signature siblings i ⟨ctx, d⟩ =
      match sg sig d with
      | .error e => .error e
      | .ok d' => .ok (.done (i + 1) .default ⟨ctx, d'⟩))
    (hds : ∀ j m d, siblings[j]? = some m → o.isDescription m top = true → o.description siblings j ⟨ctx, d⟩ = outcome j ctx (ds m d))
    (hdg : ∀ m, o.isDescription m top = true → go m = true)
    (hc : ∀ m, o.isContent m top = false)
    (hpre : ∀ j d, o.preprocess siblings j ⟨ctx, d⟩ = .ok ⟨ctx, d⟩)
    (hf : ∀ j m last d, siblings[j]? = some m → go m = true → nestedStep o false child siblings m j last ⟨o.nestedType m :: ctx, d⟩ =
        outcome j (o.nestedType m :: ctx) (f m last d))
    (hs : ∀ j m last d, siblings[j]? = some m → go m = false → nestedStep o false child siblings m j last ⟨o.nestedType m :: ctx, d⟩ =
        .ok (j, ⟨o.nestedType m :: ctx, d⟩))
    (hfin : ∀ ns j d, o.finalize ns j ⟨ctx, d⟩ = .ok ⟨ctx, fin d⟩) :
    parseSection o .header child siblings i ⟨ctx, d⟩ =
      match headerResult sg (o.isDescription · top) ds f o.nestedType fin sig ((siblings.drop (i + 1)).takeWhile go) d with
      | .error e => .error e
      | .ok d' => .ok (i + 1 + ((siblings.drop (i + 1)).takeWhile go).length, ⟨ctx, d'⟩) := by
  have hlt : i < siblings.length := (List.getElem?_eq_some_iff.mp hi).1
  unfold parseSection Adapter.start
  simp only [hi, if_pos hk]
  rw [hsg]
  unfold headerResult
  cases sg sig d with
  | error e => rfl
  | ok d₁ =>
    simp only
    unfold body
    obtain ⟨e1, e2⟩ := takeWhile_split (p := (o.isDescription · top)) (q := go) (l := siblings.drop (i + 1)) hdg
    rw [if_neg (by omega), phase_eq ht hds _ _ _ (by omega) rfl, e1]
    have e3 : (siblings.drop (i + 1)).drop ((((siblings.drop (i + 1)).takeWhile go).takeWhile (o.isDescription · top)).length) =
        (siblings.drop (i + 1)).dropWhile (o.isDescription · top) := by
      rw [← e1, drop_takeWhile_length]
    have l1 := takeWhile_length_le (o.isDescription · top) ((siblings.drop (i + 1)).takeWhile go)
    have l2 := takeWhile_length_le go (siblings.drop (i + 1))
    have l3 : ((siblings.drop (i + 1)).takeWhile go).length =
        (((siblings.drop (i + 1)).takeWhile go).takeWhile (o.isDescription · top)).length +
        (((siblings.drop (i + 1)).takeWhile go).dropWhile (o.isDescription · top)).length := by
      rw [← List.length_append, List.takeWhile_append_dropWhile]
    rw [List.length_drop] at l2
    cases steps ds (((siblings.drop (i + 1)).takeWhile go).takeWhile (o.isDescription · top)) d₁ with
    | error e => rfl
    | ok d₂ =>
      simp only
      have hph : ∀ fuel cur, phase o.isContent o.content siblings fuel cur ⟨ctx, d₂⟩ = .ok (cur, ⟨ctx, d₂⟩, true) := by
        intro fuel cur
        rw [phase.eq_def]
        cases hcur : siblings[cur]? with
        | none => simp only [hcur]
        | some m => simp [hcur, ht, hc]
      rw [hph]
      unfold closing parseNested
      simp only [hpre, Adapter.skips]
      rw [nestedLoop_until hf hs _ _ _ _ (by omega) rfl, ← List.drop_drop, e3, e2]
      cases loop f o.nestedType (((siblings.drop (i + 1)).takeWhile go).dropWhile (o.isDescription · top)) .undefined d₂ with
      | error e => rfl
      | ok d₄ =>
        simp only [hfin, Adapter.next, Except.ok.injEq, Prod.mk.injEq, and_true]
        omega

end Verif.Payload
