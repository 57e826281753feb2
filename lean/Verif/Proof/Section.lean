import Verif.Spec.Section

namespace Verif.Section
open Verif.Spec.Section

variable {σ : Type}

/-! ## The loops -/

theorem phase_ok {is : Node → SectionType → Bool}
    {step : List Node → Nat → PD σ → Except Stop (Nat × PD σ)} {ns : List Node}
    {P : Nat → PD σ → Prop}
    (hstep : ∀ cur pd cur' pd', P cur pd → cur < ns.length → step ns cur pd = .ok (cur', pd') →
      P cur' pd') :
    ∀ fuel cur pd cur' pd' b, P cur pd → phase is step ns fuel cur pd = .ok (cur', pd', b) →
      P cur' pd' := by
  intro fuel
  induction fuel with
  | zero =>
    intro cur pd cur' pd' b hP h
    rw [phase.eq_def] at h; dsimp only at h
    split at h
    · cases h; exact hP
    · split at h
      · exact absurd h (by simp)
      · cases h; exact hP
  | succ fuel ih =>
    intro cur pd cur' pd' b hP h
    rw [phase.eq_def] at h; dsimp only at h
    split at h
    · cases h; exact hP
    · rename_i n hn
      have hlt : cur < ns.length := by
        rcases List.getElem?_eq_some_iff.1 hn with ⟨h', _⟩; exact h'
      split at h
      · split at h
        · exact absurd h (by simp)
        · rename_i c p hs
          have := hstep _ _ _ _ hP hlt hs
          split at h
          · cases h; exact this
          · exact ih _ _ _ _ _ this h
      · cases h; exact hP

theorem phase_terminates {is : Node → SectionType → Bool}
    {step : List Node → Nat → PD σ → Except Stop (Nat × PD σ)} {ns : List Node}
    (hstep : ∀ cur pd, cur < ns.length → Step ns cur pd.context (step ns cur pd)) :
    ∀ fuel cur pd, ns.length - cur ≤ fuel → phase is step ns fuel cur pd ≠ .error .diverges := by
  intro fuel
  induction fuel with
  | zero =>
    intro cur pd hf h
    rw [phase.eq_def] at h; dsimp only at h
    split at h
    · cases h
    · rename_i n hn
      rcases List.getElem?_eq_some_iff.1 hn with ⟨h', _⟩
      omega
  | succ fuel ih =>
    intro cur pd hf h
    rw [phase.eq_def] at h; dsimp only at h
    split at h
    · cases h
    · rename_i n hn
      have hlt : cur < ns.length := by
        rcases List.getElem?_eq_some_iff.1 hn with ⟨h', _⟩; exact h'
      split at h
      · have hS := hstep cur pd hlt
        split at h
        · rename_i e he
          cases h
          exact hS.1 he
        · rename_i c p hs
          have := hS.2 _ _ hs
          split at h
          · cases h
          · exact ih _ _ (by omega) h
      · cases h

/-- One turn of the nested loop, as seen from outside: the context is pushed and popped. -/
theorem nestedLoop_ok {o : Own σ} {skips : Bool} {child : SectionType → Parse σ} {ns : List Node}
    {P : Nat → PD σ → Prop}
    (hstep : ∀ n cur last pd cur' pd', P cur pd → ns[cur]? = some n →
      nestedStep o skips child ns n cur last { pd with context := o.nestedType n :: pd.context } =
        .ok (cur', pd') → P cur' { pd' with context := pd'.context.tail }) :
    ∀ fuel cur last pd cur' pd', P cur pd →
      nestedLoop o skips child ns fuel cur last pd = .ok (cur', pd') → P cur' pd' := by
  intro fuel
  induction fuel with
  | zero =>
    intro cur last pd cur' pd' hP h
    rw [nestedLoop.eq_def] at h; dsimp only at h
    split at h
    · cases h; exact hP
    · exact absurd h (by simp)
  | succ fuel ih =>
    intro cur last pd cur' pd' hP h
    rw [nestedLoop.eq_def] at h; dsimp only at h
    split at h
    · cases h; exact hP
    · rename_i n hn
      split at h
      · exact absurd h (by simp)
      · rename_i c p hs
        have := hstep _ _ _ _ _ _ hP hn hs
        split at h
        · cases h; exact this
        · exact ih _ _ _ _ _ this h

theorem nestedLoop_terminates {o : Own σ} {skips : Bool} {child : SectionType → Parse σ}
    {ns : List Node}
    (hstep : ∀ n cur last pd, ns[cur]? = some n →
      Step ns cur pd.context (nestedStep o skips child ns n cur last pd)) :
    ∀ fuel cur last pd, ns.length - cur ≤ fuel →
      nestedLoop o skips child ns fuel cur last pd ≠ .error .diverges := by
  intro fuel
  induction fuel with
  | zero =>
    intro cur last pd hf h
    rw [nestedLoop.eq_def] at h; dsimp only at h
    split at h
    · cases h
    · rename_i n hn
      rcases List.getElem?_eq_some_iff.1 hn with ⟨h', _⟩
      omega
  | succ fuel ih =>
    intro cur last pd hf h
    rw [nestedLoop.eq_def] at h; dsimp only at h
    split at h
    · cases h
    · rename_i n hn
      have hlt : cur < ns.length := by
        rcases List.getElem?_eq_some_iff.1 hn with ⟨h', _⟩; exact h'
      have hS := hstep n cur last { pd with context := o.nestedType n :: pd.context } hn
      split at h
      · rename_i e he
        cases h
        exact hS.1 he
      · rename_i c p hs
        have := hS.2 _ _ hs
        split at h
        · cases h
        · exact ih _ _ _ (by omega) h

/-! ## The parser -/

/-- The parser of a section is a step. -/
def Rules (p : Parse σ) : Prop :=
  ∀ ns i pd, i ≤ ns.length → Step ns i pd.context (p ns i pd)

theorem lt_of_some {ns : List Node} {i : Nat} {n : Node} (h : ns[i]? = some n) : i < ns.length := by
  rcases List.getElem?_eq_some_iff.1 h with ⟨h', _⟩; exact h'

theorem nestedStep_step {o : Own σ} (ho : Obeys o) {skips : Bool} {child : SectionType → Parse σ}
    (hc : ∀ t, Rules (child t)) {ns : List Node} (n : Node) (cur : Nat) (last : SectionType)
    (pd : PD σ) (hn : ns[cur]? = some n) :
    Step ns cur pd.context (nestedStep o skips child ns n cur last pd) := by
  have hlt := lt_of_some hn
  unfold nestedStep
  split
  · have hN := ho.nested ns cur pd hlt
    split
    · rename_i e he
      exact ⟨fun h => hN.1 (by rw [he]; simpa using h), by simp⟩
    · rename_i c x p hs
      refine ⟨by simp, fun j q hq => ?_⟩
      cases hq
      exact hN.2.1 _ _ _ hs
    · rename_i t p hs
      have hp := hN.2.2 _ _ hs
      have hC := hc t ns cur p (Nat.le_of_lt hlt)
      split
      · rename_i e he
        exact ⟨fun h => hC.1 (by rw [he]; simpa using h), by simp⟩
      · rename_i c q hq
        have hE := ho.entered ns cur t q
        have hCC := hC.2 _ _ hq
        split
        · rename_i e he
          exact ⟨fun h => hE.1 (by rw [he]; simpa using h), by simp⟩
        · rename_i r hr
          refine ⟨by simp, fun j s hs' => ?_⟩
          cases hs'
          exact ⟨hCC.1, hCC.2.1, by rw [hE.2 _ hr, hCC.2.2, hp]⟩
  · split
    · exact ho.unexpected ns cur last pd hlt
    · refine ⟨by simp, fun j q hq => ?_⟩
      cases hq
      exact ⟨Nat.le_refl _, Nat.le_of_lt hlt, rfl⟩

theorem parseNested_step {o : Own σ} (ho : Obeys o) {skips : Bool} {child : SectionType → Parse σ}
    (hc : ∀ t, Rules (child t)) (ns : List Node) (cur : Nat) (pd : PD σ) (hle : cur ≤ ns.length) :
    Step ns cur pd.context (parseNested o skips child ns cur pd) := by
  unfold parseNested
  have hP := ho.preprocess ns cur pd
  split
  · rename_i e he
    exact ⟨fun h => hP.1 (by rw [he]; simpa using h), by simp⟩
  · rename_i p hp
    have hpc := hP.2 _ hp
    refine ⟨nestedLoop_terminates (fun n c l q hn => nestedStep_step ho hc n c l q hn) _ _ _ _
      (Nat.le_refl _), fun j q hq => ?_⟩
    have := nestedLoop_ok (P := fun c q => cur ≤ c ∧ c ≤ ns.length ∧ q.context = pd.context)
      (fun n c l q c' q' hPq hn hs => by
        have hS := (nestedStep_step ho hc n c l _ hn).2 _ _ hs
        refine ⟨Nat.le_trans hPq.1 hS.1, hS.2.1, ?_⟩
        simp only [hS.2.2, List.tail_cons]
        exact hPq.2.2) _ _ _ _ _ _ ⟨Nat.le_refl _, hle, hpc⟩ hq
    exact this

/-- Where the adapter lets the parser begin. -/
theorem start_le {a : Adapter} {siblings : List Node} {seed start : Nat} {ns : List Node}
    (hs : seed ≤ siblings.length) (h : a.start siblings seed = .ok (start, ns)) :
    start ≤ ns.length := by
  unfold Adapter.start at h
  cases a with
  | blueprint => cases h; exact hs
  | header =>
    simp only at h
    split at h
    · cases h
    · split at h
      · cases h; exact hs
      · cases h
  | list =>
    simp only at h
    split at h
    · cases h
    · split at h
      · cases h
        unfold firstMapped
        simp only
        split <;> omega
      · cases h

theorem start_diverges {a : Adapter} {siblings : List Node} {seed : Nat} :
    a.start siblings seed ≠ .error .diverges := by
  unfold Adapter.start
  cases a <;> simp only <;> (repeat' split) <;> simp

/-- What the adapter makes of the last position. -/
theorem next_step {a : Adapter} {siblings : List Node} {seed start : Nat} {ns : List Node}
    (hs : seed ≤ siblings.length) (h : a.start siblings seed = .ok (start, ns)) {cur : Nat}
    (h1 : start ≤ cur) (h2 : cur ≤ ns.length) :
    seed ≤ a.next siblings seed cur ∧ a.next siblings seed cur ≤ siblings.length ∧
      (a = .list → a.next siblings seed cur = seed + 1) := by
  unfold Adapter.start at h
  unfold Adapter.next
  cases a with
  | blueprint => cases h; exact ⟨h1, h2, by simp⟩
  | header =>
    simp only at h
    split at h
    · cases h
    · split at h
      · cases h; exact ⟨h1, h2, by simp⟩
      · cases h
  | list =>
    simp only at h
    split at h
    · cases h
    · rename_i n hn
      have := lt_of_some hn
      simp only
      rw [if_neg (by omega)]
      exact ⟨by omega, by omega, fun _ => rfl⟩

theorem closing_step {o : Own σ} (ho : Obeys o) {a : Adapter} {child : SectionType → Parse σ}
    (hc : ∀ t, Rules (child t)) {siblings : List Node} {seed start : Nat} {ns : List Node}
    (hs : seed ≤ siblings.length) (hst : a.start siblings seed = .ok (start, ns)) {cur : Nat}
    (pd : PD σ) (h1 : start ≤ cur) (h2 : cur ≤ ns.length) :
    Step siblings seed pd.context (closing o a child siblings seed ns cur pd) ∧
      (a = .list → ∀ j q, closing o a child siblings seed ns cur pd = .ok (j, q) →
        j = seed + 1) := by
  unfold closing
  have hP := parseNested_step ho (skips := a.skips) hc ns cur pd h2
  split
  · rename_i e he
    exact ⟨⟨fun h => hP.1 (by rw [he]; simpa using h), by simp⟩, by simp⟩
  · rename_i c p hp
    have hpc := hP.2 _ _ hp
    have hF := ho.finalize siblings seed p
    have hN := next_step hs hst (cur := c) (Nat.le_trans h1 hpc.1) hpc.2.1
    split
    · rename_i e he
      exact ⟨⟨fun h => hF.1 (by rw [he]; simpa using h), by simp⟩, by simp⟩
    · rename_i q hq
      refine ⟨⟨by simp, fun j r hr => ?_⟩, fun ha j r hr => ?_⟩
      · cases hr
        exact ⟨hN.1, hN.2.1, by rw [hF.2 _ hq, hpc.2.2]⟩
      · cases hr
        exact hN.2.2 ha

theorem body_step {o : Own σ} (ho : Obeys o) {a : Adapter} {child : SectionType → Parse σ}
    (hc : ∀ t, Rules (child t)) {siblings : List Node} {seed start : Nat} {ns : List Node}
    (hs : seed ≤ siblings.length) (hst : a.start siblings seed = .ok (start, ns)) {cur : Nat}
    (pd : PD σ) (h1 : start ≤ cur) (h2 : cur ≤ ns.length) :
    Step siblings seed pd.context (body o a child siblings seed ns start cur pd) ∧
      (a = .list → ∀ j q, body o a child siblings seed ns start cur pd = .ok (j, q) →
        j = seed + 1) := by
  have hnext : ∀ c (p : PD σ), start ≤ c → c ≤ ns.length → p.context = pd.context →
      Step siblings seed pd.context (.ok (a.next siblings seed c, p)) ∧
        (a = .list → ∀ j q, (Except.ok (a.next siblings seed c, p) : Except Stop (Nat × PD σ)) =
          .ok (j, q) → j = seed + 1) := by
    intro c p hc1 hc2 hp
    have hN := next_step hs hst hc1 hc2
    refine ⟨⟨by simp, fun j r hr => ?_⟩, fun ha j r hr => ?_⟩
    · cases hr; exact ⟨hN.1, hN.2.1, hp⟩
    · cases hr; exact hN.2.2 ha
  unfold body
  split
  · exact hnext _ _ h1 h2 rfl
  · have hT := phase_terminates (is := o.isDescription) (fun c p hlt => ho.description ns c p hlt)
      (ns.length - cur) cur pd (Nat.le_refl _)
    have hO := phase_ok (is := o.isDescription) (step := o.description) (ns := ns)
      (P := fun c p => start ≤ c ∧ c ≤ ns.length ∧ p.context = pd.context)
      (fun c p c' p' hP hlt hs' => by
        have := (ho.description ns c p hlt).2 _ _ hs'
        exact ⟨Nat.le_trans hP.1 this.1, this.2.1, by rw [this.2.2]; exact hP.2.2⟩)
      (ns.length - cur) cur pd
    split
    · rename_i e he
      exact ⟨⟨fun h => hT (by rw [he]; simpa using h), by simp⟩, by simp⟩
    · rename_i c₁ p₁ h
      have := hO _ _ _ ⟨h1, h2, rfl⟩ h
      exact hnext _ _ this.1 this.2.1 this.2.2
    · rename_i c₁ p₁ h
      have hd := hO _ _ _ ⟨h1, h2, rfl⟩ h
      have hT' := phase_terminates (is := o.isContent) (fun c p hlt => ho.content ns c p hlt)
        (ns.length - c₁) c₁ p₁ (Nat.le_refl _)
      have hO' := phase_ok (is := o.isContent) (step := o.content) (ns := ns)
        (P := fun c p => start ≤ c ∧ c ≤ ns.length ∧ p.context = pd.context)
        (fun c p c' p' hP hlt hs' => by
          have := (ho.content ns c p hlt).2 _ _ hs'
          exact ⟨Nat.le_trans hP.1 this.1, this.2.1, by rw [this.2.2]; exact hP.2.2⟩)
        (ns.length - c₁) c₁ p₁
      split
      · rename_i e he
        exact ⟨⟨fun h => hT' (by rw [he]; simpa using h), by simp⟩, by simp⟩
      · rename_i c₂ p₂ h'
        have := hO' _ _ _ hd h'
        exact hnext _ _ this.1 this.2.1 this.2.2
      · rename_i c₂ p₂ h'
        have := hO' _ _ _ hd h'
        have hC := closing_step ho hc hs hst p₂ this.1 this.2.1
        rw [this.2.2] at hC
        exact hC

theorem parseSection_step {o : Own σ} (ho : Obeys o) {a : Adapter} {child : SectionType → Parse σ}
    (hc : ∀ t, Rules (child t)) (siblings : List Node) (seed : Nat) (pd : PD σ)
    (hs : seed ≤ siblings.length) :
    Step siblings seed pd.context (parseSection o a child siblings seed pd) ∧
      (a = .list → ∀ j q, parseSection o a child siblings seed pd = .ok (j, q) → j = seed + 1) := by
  unfold parseSection
  split
  · rename_i e he
    exact ⟨⟨fun h => start_diverges (by rw [he]; simpa using h), by simp⟩, by simp⟩
  · rename_i start ns hst
    have hle := start_le hs hst
    have hSig := ho.signature ns start pd hle
    split
    · rename_i e he
      exact ⟨⟨fun h => hSig.1 (by rw [he]; simpa using h), by simp⟩, by simp⟩
    · rename_i t p hp
      have hpc := hSig.2.2 _ _ hp
      have hC := hc t ns start p hle
      split
      · rename_i e he
        exact ⟨⟨fun h => hC.1 (by rw [he]; simpa using h), by simp⟩, by simp⟩
      · rename_i c q hq
        have hCC := hC.2 _ _ hq
        have hE := ho.entered ns start t q
        split
        · rename_i e he
          exact ⟨⟨fun h => hE.1 (by rw [he]; simpa using h), by simp⟩, by simp⟩
        · rename_i r hr
          have hF := ho.finalize siblings seed r
          split
          · rename_i e he
            exact ⟨⟨fun h => hF.1 (by rw [he]; simpa using h), by simp⟩, by simp⟩
          · rename_i s hs'
            have hN := next_step hs hst hCC.1 hCC.2.1
            refine ⟨⟨by simp, fun j u hu => ?_⟩, fun ha j u hu => ?_⟩
            · cases hu
              exact ⟨hN.1, hN.2.1, by rw [hF.2 _ hs', hE.2 _ hr, hCC.2.2, hpc]⟩
            · cases hu; exact hN.2.2 ha
    · rename_i c p hp
      have hD := hSig.2.1 _ _ _ hp
      have := closing_step ho hc hs hst p hD.1 hD.2.1
      rw [hD.2.2] at this
      exact this
    · rename_i c p hp
      have hD := hSig.2.1 _ _ _ hp
      have hF := ho.finalize siblings seed p
      have hN := next_step hs hst hD.1 hD.2.1
      split
      · rename_i e he
        exact ⟨⟨fun h => hF.1 (by rw [he]; simpa using h), by simp⟩, by simp⟩
      · rename_i q hq
        refine ⟨⟨by simp, fun j u hu => ?_⟩, fun ha j u hu => ?_⟩
        · cases hu
          exact ⟨hN.1, hN.2.1, by rw [hF.2 _ hq, hD.2.2]⟩
        · cases hu; exact hN.2.2 ha
    · rename_i c p hp
      have hD := hSig.2.1 _ _ _ hp
      have := body_step ho hc hs hst p hD.1 hD.2.1
      rw [hD.2.2] at this
      exact this

theorem parse_rules (g : Grammar σ) (hg : AllObey g) : Rules g.parse := by
  induction g with
  | absent =>
    intro ns i pd hi
    refine ⟨by simp [Grammar.parse], fun j q h => ?_⟩
    simp only [Grammar.parse, Except.ok.injEq, Prod.mk.injEq] at h
    obtain ⟨rfl, rfl⟩ := h
    exact ⟨Nat.le_refl _, hi, rfl⟩
  | mk own a child ih =>
    intro ns i pd hi
    exact (parseSection_step hg.1 (fun t => ih t (hg.2 t)) ns i pd hi).1

end Verif.Section
