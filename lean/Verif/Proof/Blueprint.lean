import Verif.Spec.Blueprint
import Verif.Proof.Section

namespace Verif.Section
open Verif.Spec.Section

variable {σ : Type}

/-! ## The five processors keep to the rules -/

theorem common_obeys {s : SectionType} {h : Handlers σ}
    {signature : List Node → Nat → PD σ → Except Stop (Reply σ Layout)}
    {isDescription : Node → Bool} {nestedType : Node → SectionType}
    {nested : List Node → Nat → PD σ → Except Stop (Reply σ Unit)} {isUnexpected : Node → Bool}
    (hs : ∀ ns i pd, i ≤ ns.length → Answer ns i pd.context (signature ns i pd))
    (hn : ∀ ns i pd, i < ns.length → Answer ns i pd.context (nested ns i pd)) :
    Obeys (common s h signature isDescription nestedType nested isUnexpected) where
  signature := hs
  description ns i pd hi := ⟨by simp [common], by
    intro j q hq
    simp only [common, Except.ok.injEq, Prod.mk.injEq] at hq
    obtain ⟨rfl, rfl⟩ := hq
    exact ⟨by omega, hi, rfl⟩⟩
  content ns i pd hi := ⟨by simp [common], by
    intro j q hq
    simp only [common, Except.ok.injEq, Prod.mk.injEq] at hq
    obtain ⟨rfl, rfl⟩ := hq
    exact ⟨by omega, hi, rfl⟩⟩
  preprocess ns i pd := ⟨by simp [common], by
    intro q hq
    simp only [common, Except.ok.injEq] at hq
    subst hq; rfl⟩
  nested := hn
  entered ns i t pd := ⟨by simp [common], by
    intro q hq
    simp only [common, Except.ok.injEq] at hq
    subst hq; rfl⟩
  unexpected ns i last pd hi := ⟨by simp [common], by
    intro j q hq
    simp only [common, Except.ok.injEq, Prod.mk.injEq] at hq
    obtain ⟨rfl, rfl⟩ := hq
    exact ⟨by omega, hi, rfl⟩⟩
  finalize ns i pd := ⟨by simp [common], by
    intro q hq
    simp only [common, Except.ok.injEq] at hq
    subst hq; rfl⟩

theorem answer_done {α : Type} {ns : List Node} {i j : Nat} {x : α} {pd : PD σ}
    {c : List SectionType} (h1 : i ≤ j) (h2 : j ≤ ns.length) (h3 : pd.context = c) :
    Answer ns i c (.ok (.done j x pd)) :=
  ⟨by simp, by
    intro j' x' q hq
    simp only [Except.ok.injEq, Reply.done.injEq] at hq
    obtain ⟨rfl, rfl, rfl⟩ := hq
    exact ⟨h1, h2, h3⟩, by simp⟩

theorem answer_enter {α : Type} {ns : List Node} {i : Nat} {t : SectionType} {pd : PD σ}
    {c : List SectionType} (h3 : pd.context = c) :
    Answer (α := α) ns i c (.ok (.enter t pd)) :=
  ⟨by simp, by simp, by
    intro t' q hq
    simp only [Except.ok.injEq, Reply.enter.injEq] at hq
    obtain ⟨rfl, rfl⟩ := hq
    exact h3⟩

theorem answer_range {α : Type} {ns : List Node} {i : Nat} {c : List SectionType} :
    Answer (σ := σ) (α := α) ns i c (.error .outOfRange) := ⟨by simp, by simp, by simp⟩

theorem skipMetadata_le (r : Recognise) (ns : List Node) (i : Nat) (hi : i ≤ ns.length) :
    i ≤ skipMetadata r ns i ∧ skipMetadata r ns i ≤ ns.length := by
  unfold skipMetadata
  have := (List.takeWhile_sublist (l := ns.drop i)
    fun n => n.kind == .paragraph && r.metadata n.text).length_le
  simp only [List.length_drop] at this
  omega

theorem readMetadata_context (h : Handlers σ) (ns : List Node) :
    ∀ k i pd, (readMetadata h ns k i pd).context = pd.context := by
  intro k
  induction k with
  | zero => intro i pd; rfl
  | succ k ih => intro i pd; exact ih _ _

theorem blueprintOwn_obeys (r : Recognise) (h : Handlers σ) : Obeys (blueprintOwn r h) := by
  refine common_obeys (fun ns i pd hi => ?_) (fun ns i pd hi => ?_)
  · have hs := skipMetadata_le r ns i hi
    unfold blueprintSignature
    dsimp only
    have hc := readMetadata_context h ns (skipMetadata r ns i - i) i pd
    split
    · exact answer_done hs.1 hs.2 hc
    · rename_i n hn
      have := lt_of_some hn
      split
      · exact answer_done hs.1 hs.2 hc
      · exact answer_done (by omega) (by omega) hc
  · split
    · exact answer_enter rfl
    · exact answer_enter rfl
    · exact answer_enter rfl
    · exact answer_done (Nat.le_refl _) (Nat.le_of_lt hi) rfl

theorem groupOwn_obeys (r : Recognise) (h : Handlers σ) : Obeys (groupOwn r h) := by
  refine common_obeys (fun ns i pd hi => ?_) (fun ns i pd hi => ?_)
  · unfold groupSignature
    split
    · exact answer_range
    · rename_i n hn
      have := lt_of_some hn
      split
      · exact answer_done (Nat.le_refl _) hi rfl
      · exact answer_done (by omega) (by omega) rfl
  · split
    · exact answer_enter rfl
    · exact answer_done (Nat.le_refl _) (Nat.le_of_lt hi) rfl

theorem resourceOwn_obeys (r : Recognise) (h : Handlers σ) : Obeys (resourceOwn r h) := by
  refine common_obeys (fun ns i pd hi => ?_) (fun ns i pd hi => ?_)
  · unfold resourceSignature
    split
    · exact answer_range
    · rename_i n hn
      have := lt_of_some hn
      split
      · exact answer_enter rfl
      · exact answer_done (by omega) (by omega) rfl
  · split
    all_goals first
      | exact answer_enter rfl
      | exact answer_done (Nat.le_refl _) (Nat.le_of_lt hi) rfl

theorem oneNode_answer (s : SectionType) (h : Handlers σ) (ns : List Node) (i : Nat) (pd : PD σ) :
    Answer ns i pd.context (oneNode s h ns i pd) := by
  unfold oneNode
  split
  · exact answer_range
  · rename_i n hn
    have := lt_of_some hn
    exact answer_done (by omega) (by omega) rfl

theorem actionOwn_obeys (r : Recognise) (h : Handlers σ) : Obeys (actionOwn r h) := by
  refine common_obeys (fun ns i pd hi => oneNode_answer _ _ _ _ _) (fun ns i pd hi => ?_)
  split
  all_goals first
    | exact answer_enter rfl
    | exact answer_done (Nat.le_refl _) (Nat.le_of_lt hi) rfl

theorem dataStructuresOwn_obeys (r : Recognise) (h : Handlers σ) :
    Obeys (dataStructuresOwn r h) := by
  refine common_obeys (fun ns i pd hi => oneNode_answer _ _ _ _ _) (fun ns i pd hi => ?_)
  split
  all_goals first
    | exact answer_enter rfl
    | exact answer_done (Nat.le_refl _) (Nat.le_of_lt hi) rfl

theorem action_allObey (r : Recognise) (h : Handlers σ) {x : Others σ} (hx : OthersObey x) :
    AllObey (actionGrammar r h x) := ⟨actionOwn_obeys r h, hx.ofAction⟩

theorem resource_allObey (r : Recognise) (h : Handlers σ) {x : Others σ} (hx : OthersObey x) :
    AllObey (resourceGrammar r h x) := by
  refine ⟨resourceOwn_obeys r h, fun t => ?_⟩
  unfold resourceChild
  split
  · exact action_allObey r h hx
  · exact hx.ofResource _

theorem group_allObey (r : Recognise) (h : Handlers σ) {x : Others σ} (hx : OthersObey x) :
    AllObey (groupGrammar r h x) := by
  refine ⟨groupOwn_obeys r h, fun t => ?_⟩
  unfold groupChild
  split
  · exact resource_allObey r h hx
  · trivial

theorem dataStructures_allObey (r : Recognise) (h : Handlers σ) {x : Others σ}
    (hx : OthersObey x) : AllObey (dataStructuresGrammar r h x) := by
  refine ⟨dataStructuresOwn_obeys r h, fun t => ?_⟩
  unfold dataStructuresChild
  split
  · exact hx.namedType
  · trivial

theorem blueprint_allObey (r : Recognise) (h : Handlers σ) {x : Others σ} (hx : OthersObey x) :
    AllObey (blueprintGrammar r h x) := by
  refine ⟨blueprintOwn_obeys r h, fun t => ?_⟩
  unfold blueprintChild
  split
  · exact group_allObey r h hx
  · exact dataStructures_allObey r h hx
  · trivial

/-! ## Progress -/

/-- What is read after the signature lies at or after where the signature stopped. -/
theorem closing_ge {o : Own σ} (ho : Obeys o) {a : Adapter} (ha : a ≠ .list)
    {child : SectionType → Parse σ} (hc : ∀ t, Rules (child t)) {siblings : List Node}
    {seed : Nat} {ns : List Node} {cur : Nat} {pd : PD σ} (h2 : cur ≤ ns.length) {j : Nat}
    {q : PD σ} (h : closing o a child siblings seed ns cur pd = .ok (j, q)) : cur ≤ j := by
  unfold closing at h
  split at h
  · cases h
  · rename_i c p hp
    split at h
    · cases h
    · have := ((parseNested_step ho hc ns cur pd h2).2 _ _ hp).1
      cases h
      cases a with
      | list => exact absurd rfl ha
      | header => exact this
      | blueprint => exact this

theorem body_ge {o : Own σ} (ho : Obeys o) {a : Adapter} (ha : a ≠ .list)
    {child : SectionType → Parse σ} (hc : ∀ t, Rules (child t)) {siblings : List Node}
    {seed : Nat} {ns : List Node} {start cur : Nat} {pd : PD σ} (h2 : cur ≤ ns.length) {j : Nat}
    {q : PD σ} (h : body o a child siblings seed ns start cur pd = .ok (j, q)) : cur ≤ j := by
  have hnext : ∀ c, a.next siblings seed c = c := by
    intro c
    cases a with
    | list => exact absurd rfl ha
    | header => rfl
    | blueprint => rfl
  unfold body at h
  simp only [hnext] at h
  split at h
  · cases h; exact Nat.le_refl _
  · have hO := phase_ok (is := o.isDescription) (step := o.description) (ns := ns)
      (P := fun c _ => cur ≤ c ∧ c ≤ ns.length)
      (fun c p c' p' hP hlt hs' => by
        have := (ho.description ns c p hlt).2 _ _ hs'
        exact ⟨Nat.le_trans hP.1 this.1, this.2.1⟩)
      (ns.length - cur) cur pd
    split at h
    · cases h
    · rename_i c₁ p₁ h'
      cases h
      exact (hO _ _ _ ⟨Nat.le_refl _, h2⟩ h').1
    · rename_i c₁ p₁ h'
      have hd := hO _ _ _ ⟨Nat.le_refl _, h2⟩ h'
      have hO' := phase_ok (is := o.isContent) (step := o.content) (ns := ns)
        (P := fun c _ => cur ≤ c ∧ c ≤ ns.length)
        (fun c p c' p' hP hlt hs' => by
          have := (ho.content ns c p hlt).2 _ _ hs'
          exact ⟨Nat.le_trans hP.1 this.1, this.2.1⟩)
        (ns.length - c₁) c₁ p₁
      split at h
      · cases h
      · rename_i c₂ p₂ h''
        cases h
        exact (hO' _ _ _ hd h'').1
      · rename_i c₂ p₂ h''
        have := hO' _ _ _ hd h''
        exact Nat.le_trans this.1 (closing_ge ho ha hc this.2 h)

/-- A parser moves past the header it was called at. -/
def Moves (p : Parse σ) : Prop :=
  ∀ ns i pd j q n, ns[i]? = some n → n.kind = .header → p ns i pd = .ok (j, q) → i < j

theorem oneNode_moves {o : Own σ} (ho : Obeys o) {child : SectionType → Parse σ}
    (hc : ∀ t, Rules (child t))
    (hs : ∀ ns i pd n, ns[i]? = some n → ∃ pd', o.signature ns i pd = .ok (.done (i + 1) .default pd')) :
    Moves (parseSection o .header child) := by
  intro ns i pd j q n hn hk h
  have hlt := lt_of_some hn
  unfold parseSection at h
  rw [show Adapter.header.start ns i = .ok (i, ns) by simp [Adapter.start, hn, hk]] at h
  obtain ⟨pd', hsig⟩ := hs ns i pd n hn
  simp only [hsig] at h
  have := body_ge ho (by simp) hc (by omega) h
  omega

theorem action_moves (r : Recognise) (h : Handlers σ) {x : Others σ} (hx : OthersObey x) :
    Moves (actionGrammar r h x).parse := by
  refine oneNode_moves (actionOwn_obeys r h) (fun t => parse_rules _ (hx.ofAction t)) ?_
  intro ns i pd n hn
  exact ⟨pd.set (h.signature .action ns i pd), by simp only [actionOwn, common, oneNode, hn]⟩

theorem dataStructures_moves (r : Recognise) (h : Handlers σ) {x : Others σ} (hx : OthersObey x) :
    Moves (dataStructuresGrammar r h x).parse := by
  refine oneNode_moves (dataStructuresOwn_obeys r h)
    (fun t => parse_rules _ ((dataStructures_allObey r h hx).2 t)) ?_
  intro ns i pd n hn
  exact ⟨pd.set (h.signature .dataStructureGroup ns i pd),
    by simp only [dataStructuresOwn, common, oneNode, hn]⟩

theorem resource_moves (r : Recognise) (h : Handlers σ) {x : Others σ} (hx : OthersObey x) :
    Moves (resourceGrammar r h x).parse := by
  intro ns i pd j q n hn hk hp
  have hlt := lt_of_some hn
  have hall := resource_allObey r h hx
  unfold resourceGrammar at hp
  simp only [Grammar.parse] at hp
  unfold parseSection at hp
  rw [show Adapter.header.start ns i = .ok (i, ns) by simp [Adapter.start, hn, hk]] at hp
  by_cases ha : r.abbreviated n.text = true
  · have hsig : (resourceOwn r h).signature ns i pd =
        .ok (.enter .action (pd.set (h.abbreviated ns i pd))) := by
      simp only [resourceOwn, common, resourceSignature, hn, ha, if_true]
    simp only [hsig] at hp
    split at hp
    · cases hp
    · rename_i c p' hc
      have hm := action_moves r h hx ns i _ _ _ n hn hk hc
      split at hp
      · cases hp
      · split at hp
        · cases hp
        · cases hp
          exact hm
  · have hsig : (resourceOwn r h).signature ns i pd =
        .ok (.done (i + 1) .default (pd.set (h.signature .resource ns i pd))) := by
      simp only [resourceOwn, common, resourceSignature, hn, ha]
      rfl
    simp only [hsig] at hp
    have := body_ge hall.1 (by simp) (fun t => parse_rules _ (hall.2 t)) (by omega) hp
    omega

/-- The nested loop passes the first node if its step does. -/
theorem nestedLoop_first {o : Own σ} (ho : Obeys o) {skips : Bool} {child : SectionType → Parse σ}
    (hc : ∀ t, Rules (child t)) {ns : List Node} {fuel cur : Nat} {last : SectionType} {pd : PD σ}
    {n : Node} (hn : ns[cur]? = some n)
    (hm : ∀ c p, nestedStep o skips child ns n cur last
      { pd with context := o.nestedType n :: pd.context } = .ok (c, p) → cur < c) {j : Nat}
    {q : PD σ} (h : nestedLoop o skips child ns fuel cur last pd = .ok (j, q)) : cur < j := by
  have hlt := lt_of_some hn
  rw [nestedLoop.eq_def] at h
  simp only [hn] at h
  split at h
  · cases h
  · rename_i fuel'
    split at h
    · cases h
    · rename_i c p hs
      have hcp := hm _ _ hs
      have hS := (nestedStep_step ho (skips := skips) hc n cur last
        { pd with context := o.nestedType n :: pd.context } hn).2 _ _ hs
      split at h
      · cases h; exact hcp
      · have := nestedLoop_ok (P := fun c' _ => c ≤ c' ∧ c' ≤ ns.length)
          (fun n' c' l' q' c'' q'' hP hn' hs' => by
            have hS' := (nestedStep_step ho (skips := skips) hc n' c' l' _ hn').2 _ _ hs'
            exact ⟨Nat.le_trans hP.1 hS'.1, hS'.2.1⟩) _ _ _ _ _ _ ⟨Nat.le_refl _, hS.2.1⟩ h
        omega

theorem ofHeader_kind {n : Node} {b : Bool} {t : SectionType}
    (h : Recognise.ofHeader n b t ≠ .undefined) :
    n.kind = .header ∧ Recognise.ofHeader n b t = t := by
  unfold Recognise.ofHeader at h ⊢
  split at h
  · rename_i hh
    exact ⟨hh.1, by rw [if_pos hh]⟩
  · exact absurd rfl h

theorem group_moves (r : Recognise) (h : Handlers σ) {x : Others σ} (hx : OthersObey x) :
    Moves (groupGrammar r h x).parse := by
  intro ns i pd j q n hn hk hp
  have hlt := lt_of_some hn
  have hall := group_allObey r h hx
  have hrules := fun t => parse_rules _ (hall.2 t)
  unfold groupGrammar at hp
  simp only [Grammar.parse] at hp
  unfold parseSection at hp
  rw [show Adapter.header.start ns i = .ok (i, ns) by simp [Adapter.start, hn, hk]] at hp
  by_cases ha : r.groupNested n ≠ .undefined
  · have hsig : (groupOwn r h).signature ns i pd = .ok (.done i .exclusive pd) := by
      simp only [groupOwn, common, groupSignature, hn, if_pos ha]
    simp only [hsig] at hp
    unfold closing at hp
    split at hp
    · cases hp
    · rename_i c p hpn
      split at hp
      · cases hp
      · cases hp
        unfold parseNested at hpn
        split at hpn
        · cases hpn
        · rename_i p' hp'
          refine nestedLoop_first hall.1 hrules hn ?_ hpn
          intro c' q' hst
          have hres : r.groupNested n = .resource := (ofHeader_kind ha).2
          unfold nestedStep at hst
          have hty : (groupOwn r h).nestedType n = .resource := hres
          rw [if_pos (by rw [hty]; simp)] at hst
          simp only [hty] at hst
          have hnest : ∀ d, (groupOwn r h).nested ns i ⟨.resource :: p'.context, d⟩ =
              .ok (.enter .resource ⟨.resource :: p'.context, d⟩) := fun d => rfl
          rw [hnest] at hst
          simp only at hst
          split at hst
          · cases hst
          · rename_i c'' q'' hch
            have hm := resource_moves r h hx ns i _ _ _ n hn hk hch
            split at hst
            · cases hst
            · cases hst; exact hm
  · have hsig : (groupOwn r h).signature ns i pd =
        .ok (.done (i + 1) .default (pd.set (h.signature .resourceGroup ns i pd))) := by
      simp only [groupOwn, common, groupSignature, hn, if_neg ha]
    simp only [hsig] at hp
    have := body_ge hall.1 (by simp) hrules (by omega) hp
    omega

/-! ## The whole document -/

/-- When every step of the nested loop moves, the loop reaches the end. -/
theorem nestedLoop_end {o : Own σ} {skips : Bool} {child : SectionType → Parse σ} {ns : List Node}
    (hm : ∀ n cur last (pd : PD σ) c p, ns[cur]? = some n →
      nestedStep o skips child ns n cur last { pd with context := o.nestedType n :: pd.context } =
        .ok (c, p) → cur < c ∧ c ≤ ns.length) :
    ∀ fuel cur last pd j q, cur ≤ ns.length →
      nestedLoop o skips child ns fuel cur last pd = .ok (j, q) → j = ns.length := by
  intro fuel
  induction fuel with
  | zero =>
    intro cur last pd j q hle h
    rw [nestedLoop.eq_def] at h; dsimp only at h
    split at h
    · rename_i hn
      cases h
      have := List.getElem?_eq_none_iff.1 hn
      omega
    · cases h
  | succ fuel ih =>
    intro cur last pd j q hle h
    rw [nestedLoop.eq_def] at h; dsimp only at h
    split at h
    · rename_i hn
      cases h
      have := List.getElem?_eq_none_iff.1 hn
      omega
    · rename_i n hn
      split at h
      · cases h
      · rename_i c p hs
        have := hm _ _ _ _ _ _ hn hs
        split at h
        · omega
        · exact ih _ _ _ _ _ this.2 h

theorem first_cases (l : List SectionType) (h : Recognise.first l ≠ .undefined) :
    ∃ t ∈ l, t ≠ .undefined ∧ Recognise.first l = t := by
  induction l with
  | nil => exact absurd rfl h
  | cons t ts ih =>
    unfold Recognise.first at h ⊢
    split
    · rename_i ht; exact ⟨t, by simp, ht, rfl⟩
    · rename_i ht
      rw [if_neg ht] at h
      obtain ⟨u, hu, hne, he⟩ := ih h
      exact ⟨u, List.mem_cons_of_mem _ hu, hne, he⟩

/-- What the blueprint recognises as a section is a header of one of three kinds. -/
theorem blueprintNested_cases (r : Recognise) (n : Node) (h : r.blueprintNested n ≠ .undefined) :
    n.kind = .header ∧ (r.blueprintNested n = .resource ∨ r.blueprintNested n = .resourceGroup ∨
      r.blueprintNested n = .dataStructureGroup) := by
  obtain ⟨t, ht, hne, he⟩ := first_cases _ h
  simp only [List.mem_cons, List.not_mem_nil, or_false] at ht
  rcases ht with rfl | rfl | rfl
  · have := ofHeader_kind hne
    exact ⟨this.1, .inl (by rw [Recognise.blueprintNested, he]; exact this.2)⟩
  · have := ofHeader_kind hne
    exact ⟨this.1, .inr (.inl (by rw [Recognise.blueprintNested, he]; exact this.2))⟩
  · have := ofHeader_kind hne
    exact ⟨this.1, .inr (.inr (by rw [Recognise.blueprintNested, he]; exact this.2))⟩

theorem blueprint_nestedStep (r : Recognise) (h : Handlers σ) {x : Others σ} (hx : OthersObey x)
    (ns : List Node) (n : Node) (cur : Nat) (last : SectionType) (pd : PD σ) (c : Nat) (p : PD σ)
    (hn : ns[cur]? = some n)
    (hst : nestedStep (blueprintOwn r h) false
      (fun t => (blueprintChild r h x t).parse) ns n cur last
      { pd with context := (blueprintOwn r h).nestedType n :: pd.context } = .ok (c, p)) :
    cur < c ∧ c ≤ ns.length := by
  have hall := blueprint_allObey r h hx
  have hlt := lt_of_some hn
  refine ⟨?_, ((nestedStep_step hall.1 (fun t => parse_rules _ (hall.2 t)) n cur last _ hn).2 _ _
    hst).2.1⟩
  have hty : (blueprintOwn r h).nestedType n = r.blueprintNested n := rfl
  rw [hty] at hst
  unfold nestedStep at hst
  rw [hty] at hst
  by_cases hne : r.blueprintNested n ≠ .undefined
  · rw [if_pos hne] at hst
    obtain ⟨hk, hcases⟩ := blueprintNested_cases r n hne
    rcases hcases with hc | hc | hc
    · rw [hc] at hst
      have hnest : (blueprintOwn r h).nested ns cur ⟨.resource :: pd.context, pd.data⟩ =
          .ok (.enter .resourceGroup ⟨.resource :: pd.context, pd.data⟩) := rfl
      rw [hnest] at hst
      simp only at hst
      split at hst
      · cases hst
      · rename_i c'' q'' hch
        have hm := group_moves r h hx ns cur _ _ _ n hn hk hch
        split at hst
        · cases hst
        · cases hst; exact hm
    · rw [hc] at hst
      have hnest : (blueprintOwn r h).nested ns cur ⟨.resourceGroup :: pd.context, pd.data⟩ =
          .ok (.enter .resourceGroup ⟨.resourceGroup :: pd.context, pd.data⟩) := rfl
      rw [hnest] at hst
      simp only at hst
      split at hst
      · cases hst
      · rename_i c'' q'' hch
        have hm := group_moves r h hx ns cur _ _ _ n hn hk hch
        split at hst
        · cases hst
        · cases hst; exact hm
    · rw [hc] at hst
      have hnest : (blueprintOwn r h).nested ns cur ⟨.dataStructureGroup :: pd.context, pd.data⟩ =
          .ok (.enter .dataStructureGroup ⟨.dataStructureGroup :: pd.context, pd.data⟩) := rfl
      rw [hnest] at hst
      simp only at hst
      split at hst
      · cases hst
      · rename_i c'' q'' hch
        have hm := dataStructures_moves r h hx ns cur _ _ _ n hn hk hch
        split at hst
        · cases hst
        · cases hst; exact hm
  · rw [if_neg hne] at hst
    have hu : ∀ a b, (blueprintOwn r h).isUnexpected a b = true := fun _ _ => rfl
    rw [hu, if_pos (by simp)] at hst
    simp only [blueprintOwn, common, Except.ok.injEq, Prod.mk.injEq] at hst
    omega

/-- A loop whose processor always moves never comes back stuck. -/
theorem phase_moves {is : Node → SectionType → Bool}
    {step : List Node → Nat → PD σ → Except Stop (Nat × PD σ)} {ns : List Node}
    (hstep : ∀ cur pd c p, step ns cur pd = .ok (c, p) → c ≠ cur) :
    ∀ fuel cur pd c p b, phase is step ns fuel cur pd = .ok (c, p, b) → b = true := by
  intro fuel
  induction fuel with
  | zero =>
    intro cur pd c p b h
    rw [phase.eq_def] at h; dsimp only at h
    split at h
    · cases h; rfl
    · split at h
      · cases h
      · cases h; rfl
  | succ fuel ih =>
    intro cur pd c p b h
    rw [phase.eq_def] at h; dsimp only at h
    split at h
    · cases h; rfl
    · split at h
      · split at h
        · cases h
        · rename_i c' p' hs
          split at h
          · rename_i he
            exact absurd he (hstep _ _ _ _ hs)
          · exact ih _ _ _ _ _ h
      · cases h; rfl

theorem blueprint_closing (r : Recognise) (h : Handlers σ) {x : Others σ} (hx : OthersObey x)
    (ns : List Node) (cur : Nat) (pd : PD σ) (j : Nat) (q : PD σ) (hle : cur ≤ ns.length)
    (hp : closing (blueprintOwn r h) .blueprint
      (fun t => (blueprintChild r h x t).parse) ns 0 ns cur pd = .ok (j, q)) :
    j = ns.length := by
  unfold closing at hp
  split at hp
  · cases hp
  · rename_i c p hpn
    split at hp
    · cases hp
    · cases hp
      unfold parseNested at hpn
      split at hpn
      · cases hpn
      · exact nestedLoop_end (fun n cur last pd c p hn hst =>
          blueprint_nestedStep r h hx ns n cur last pd c p hn hst) _ _ _ _ _ _ hle hpn

/-- A blueprint is read to its end. -/
theorem blueprint_end (r : Recognise) (h : Handlers σ) {x : Others σ} (hx : OthersObey x)
    (ns : List Node) (pd : PD σ) (j : Nat) (q : PD σ)
    (hp : (blueprintGrammar r h x).parse ns 0 pd = .ok (j, q)) : j = ns.length := by
  have hall := blueprint_allObey r h hx
  unfold blueprintGrammar at hp
  simp only [Grammar.parse] at hp
  unfold parseSection at hp
  simp only [Adapter.start] at hp
  have hsk := skipMetadata_le r ns 0 (Nat.zero_le _)
  have hsig : (blueprintOwn r h).signature ns 0 pd = blueprintSignature r h ns 0 pd := rfl
  rw [hsig] at hp
  unfold blueprintSignature at hp
  dsimp only at hp
  have hbody : ∀ cur (p : PD σ), cur ≤ ns.length → (cur = 0 → ns = []) →
      body (blueprintOwn r h) .blueprint
        (fun t => (blueprintChild r h x t).parse) ns 0 ns 0 cur p = .ok (j, q) →
      j = ns.length := by
    intro cur p hle h0 hb
    unfold body at hb
    split at hb
    · rename_i hz
      cases hb
      rw [h0 hz, hz]
      rfl
    · have hst : ∀ c' (p' : PD σ) c'' p'', (blueprintOwn r h).description ns c' p' = .ok (c'', p'') →
          c'' ≠ c' := by
        intro c' p' c'' p'' hd
        simp only [blueprintOwn, common, Except.ok.injEq, Prod.mk.injEq] at hd
        omega
      have hst' : ∀ c' (p' : PD σ) c'' p'', (blueprintOwn r h).content ns c' p' = .ok (c'', p'') →
          c'' ≠ c' := by
        intro c' p' c'' p'' hd
        simp only [blueprintOwn, common, Except.ok.injEq, Prod.mk.injEq] at hd
        omega
      have hO := phase_ok (is := (blueprintOwn r h).isDescription)
        (step := (blueprintOwn r h).description) (ns := ns) (P := fun c _ => c ≤ ns.length)
        (fun c p c' p' hP hlt hs' => ((hall.1.description ns c p hlt).2 _ _ hs').2.1)
        (ns.length - cur) cur p
      split at hb
      · cases hb
      · rename_i c₁ p₁ h'
        have := phase_moves hst _ _ _ _ _ _ h'
        cases this
      · rename_i c₁ p₁ h'
        have h₁ := hO _ _ _ hle h'
        have hO' := phase_ok (is := (blueprintOwn r h).isContent)
          (step := (blueprintOwn r h).content) (ns := ns) (P := fun c _ => c ≤ ns.length)
          (fun c p c' p' hP hlt hs' => ((hall.1.content ns c p hlt).2 _ _ hs').2.1)
          (ns.length - c₁) c₁ p₁
        split at hb
        · cases hb
        · rename_i c₂ p₂ h''
          have := phase_moves hst' _ _ _ _ _ _ h''
          cases this
        · rename_i c₂ p₂ h''
          exact blueprint_closing r h hx ns c₂ p₂ j q (hO' _ _ _ h₁ h'') hb
  cases hget : ns[skipMetadata r ns 0]? with
  | none =>
    simp only [hget] at hp
    have := List.getElem?_eq_none_iff.1 hget
    refine hbody _ _ hsk.2 (fun hz => ?_) hp
    have : ns.length = 0 := by omega
    exact List.length_eq_zero_iff.1 this
  | some n =>
    simp only [hget] at hp
    have hlt := lt_of_some hget
    split at hp
    · cases hp
    · rename_i t p hp'
      split at hp' <;> cases hp'
    · rename_i c p hp'
      split at hp'
      · cases hp'
        exact blueprint_closing r h hx ns _ _ j q hsk.2 hp
      · cases hp'
    · rename_i c p hp'
      split at hp' <;> cases hp'
    · rename_i c p hp'
      split at hp'
      · cases hp'
      · cases hp'
        exact hbody _ _ (by omega) (by omega) hp

end Verif.Section
