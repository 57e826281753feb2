import Verif.Proof.Blueprint

/-!
# Every block is read once
-/

namespace Verif.Section
open Verif.Spec.Section

/-- The record after reading the blocks from `s` to `c`. -/
def Read (d : List Nat) (s c : Nat) (pd : PD (List Nat)) : Prop :=
  s ≤ c ∧ pd.data = d ++ List.range' s (c - s)

theorem read_refl (s : Nat) (pd : PD (List Nat)) : Read pd.data s s pd := by
  refine ⟨Nat.le_refl _, ?_⟩
  simp

theorem read_trans {d : List Nat} {s c e : Nat} {pd q : PD (List Nat)} (h : Read d s c pd)
    (h' : Read pd.data c e q) : Read d s e q := by
  refine ⟨Nat.le_trans h.1 h'.1, ?_⟩
  rw [h'.2, h.2, List.append_assoc]
  congr 1
  have he : e - s = (c - s) + (e - c) := by have := h.1; have := h'.1; omega
  rw [he, List.range'_append_1.symm]
  congr 2
  have := h.1
  omega

theorem read_one {d : List Nat} {s c : Nat} {pd q : PD (List Nat)} (h : Read d s c pd)
    (h' : q.data = pd.data ++ [c]) : Read d s (c + 1) q :=
  read_trans h ⟨Nat.le_succ _, by rw [h']; simp⟩

/-- Like `ReadsOnce`, of what a processor does. -/
structure Logs (o : Own (List Nat)) (child : SectionType → Parse (List Nat)) : Prop where
  description : ∀ ns i pd j q, o.description ns i pd = .ok (j, q) →
    j = i + 1 ∧ q.data = pd.data ++ [i]
  content : ∀ n t, o.isContent n t = false
  preprocess : ∀ ns i pd q, o.preprocess ns i pd = .ok q → q.data = pd.data
  entered : ∀ ns i t pd q, o.entered ns i t pd = .ok q → q.data = pd.data
  unexpected : ∀ ns i last pd j q, o.unexpected ns i last pd = .ok (j, q) →
    j = i + 1 ∧ q.data = pd.data ++ [i]
  finalize : ∀ ns i pd q, o.finalize ns i pd = .ok q → q.data = pd.data
  nested : ∀ ns i pd, (∀ j x q, o.nested ns i pd = .ok (.done j x q) → j = i ∧ q.data = pd.data) ∧
    ∀ t q, o.nested ns i pd = .ok (.enter t q) → q.data = pd.data
  child : ∀ t, ReadsOnce (child t)

theorem nestedStep_read {o : Own (List Nat)} {child : SectionType → Parse (List Nat)}
    (hl : Logs o child) {skips : Bool} {ns : List Node} {n : Node} {cur : Nat} {last : SectionType}
    {pd : PD (List Nat)} {c : Nat} {q : PD (List Nat)}
    (h : nestedStep o skips child ns n cur last pd = .ok (c, q)) : Read pd.data cur c q := by
  unfold nestedStep at h
  have hN := hl.nested ns cur pd
  split at h
  · split at h
    · cases h
    · rename_i c' x p hp
      cases h
      obtain ⟨rfl, h2⟩ := hN.1 _ _ _ hp
      exact ⟨Nat.le_refl _, by simp [h2]⟩
    · rename_i t p hp
      have h2 := hN.2 _ _ hp
      split at h
      · cases h
      · rename_i c' p' hc
        split at h
        · cases h
        · rename_i p'' he
          cases h
          have := hl.child t _ _ _ _ _ hc
          refine ⟨this.1, ?_⟩
          rw [hl.entered _ _ _ _ _ he, this.2, h2]
  · split at h
    · obtain ⟨rfl, h2⟩ := hl.unexpected _ _ _ _ _ _ h
      exact read_one (read_refl cur pd) h2
    · cases h
      exact read_refl _ _

theorem closing_read {o : Own (List Nat)} {child : SectionType → Parse (List Nat)}
    (hl : Logs o child) {a : Adapter} (ha : a ≠ .list) {siblings : List Node} {seed : Nat}
    {ns : List Node} {cur : Nat} {pd : PD (List Nat)} {j : Nat} {q : PD (List Nat)}
    (h : closing o a child siblings seed ns cur pd = .ok (j, q)) : Read pd.data cur j q := by
  unfold closing at h
  split at h
  · cases h
  · rename_i c p hp
    split at h
    · cases h
    · rename_i p' hf
      have hj : a.next siblings seed c = c := by
        cases a with
        | list => exact absurd rfl ha
        | header => rfl
        | blueprint => rfl
      cases h
      rw [hj]
      unfold parseNested at hp
      split at hp
      · cases hp
      · rename_i p₀ hp₀
        have := nestedLoop_ok (P := fun c q => Read pd.data cur c q)
          (fun n c l q c' q' hP hn hs => by
            have := nestedStep_read hl hs
            exact read_trans hP ⟨this.1, this.2⟩) _ _ _ _ _ _
          (show Read pd.data cur cur p₀ from ⟨Nat.le_refl _, by simp [hl.preprocess _ _ _ _ hp₀]⟩) hp
        exact ⟨this.1, by rw [hl.finalize _ _ _ _ hf]; exact this.2⟩

theorem body_read {o : Own (List Nat)} {child : SectionType → Parse (List Nat)}
    (hl : Logs o child) {a : Adapter} (ha : a ≠ .list) {siblings : List Node} {seed : Nat}
    {ns : List Node} {start cur : Nat} {pd : PD (List Nat)} {j : Nat} {q : PD (List Nat)}
    (h : body o a child siblings seed ns start cur pd = .ok (j, q)) : Read pd.data cur j q := by
  have hj : ∀ c, a.next siblings seed c = c := by
    intro c
    cases a with
    | list => exact absurd rfl ha
    | header => rfl
    | blueprint => rfl
  unfold body at h
  simp only [hj] at h
  split at h
  · cases h; exact read_refl _ _
  · have hD : ∀ fuel c p b, phase o.isDescription o.description ns fuel cur pd = .ok (c, p, b) →
        Read pd.data cur c p := fun fuel c p b hp =>
      phase_ok (P := fun c q => Read pd.data cur c q)
        (fun c q c' q' hP _ hs => by
          obtain ⟨rfl, h2⟩ := hl.description _ _ _ _ _ hs
          exact read_one hP h2) _ _ _ _ _ _ (read_refl cur pd) hp
    split at h
    · cases h
    · rename_i c₁ p₁ h₁
      cases h
      exact hD _ _ _ _ h₁
    · rename_i c₁ p₁ h₁
      have h₁' := hD _ _ _ _ h₁
      have hC : ∀ fuel, phase o.isContent o.content ns fuel c₁ p₁ = .ok (c₁, p₁, true) := by
        intro fuel
        rw [phase.eq_def]
        dsimp only
        split
        · rfl
        · rw [hl.content]; rfl
      rw [hC] at h
      exact read_trans h₁' (closing_read hl ha h)

theorem section_read {o : Own (List Nat)} {child : SectionType → Parse (List Nat)}
    (hl : Logs o child) {a : Adapter} (ha : a ≠ .list)
    (hs : ∀ ns i pd, (∀ j l q, o.signature ns i pd = .ok (.done j l q) → Read pd.data i j q) ∧
      ∀ t q, o.signature ns i pd = .ok (.enter t q) → q.data = pd.data) :
    ReadsOnce (parseSection o a child) := by
  intro siblings seed pd j q h
  have hj : ∀ c, a.next siblings seed c = c := by
    intro c
    cases a with
    | list => exact absurd rfl ha
    | header => rfl
    | blueprint => rfl
  have hst : ∀ s ns, a.start siblings seed = .ok (s, ns) → s = seed := by
    intro s ns h
    unfold Adapter.start at h
    cases a with
    | list => exact absurd rfl ha
    | header =>
      simp only at h
      split at h
      · cases h
      · split at h <;> cases h
        rfl
    | blueprint => cases h; rfl
  suffices Read pd.data seed j q from this
  unfold parseSection at h
  split at h
  · cases h
  · rename_i s ns hs'
    have := hst _ _ hs'
    subst this
    have hS := hs ns s pd
    simp only [hj] at h
    split at h
    · cases h
    · rename_i t p hp
      have h2 := hS.2 _ _ hp
      split at h
      · cases h
      · rename_i c p' hc
        split at h
        · cases h
        · rename_i p'' he
          split at h
          · cases h
          · rename_i p''' hf
            cases h
            have := hl.child t _ _ _ _ _ hc
            refine ⟨this.1, ?_⟩
            rw [hl.finalize _ _ _ _ hf, hl.entered _ _ _ _ _ he, this.2, h2]
    · rename_i c p hp
      exact read_trans (hS.1 _ _ _ hp) (closing_read hl ha h)
    · rename_i c p hp
      have := hS.1 _ _ _ hp
      split at h
      · cases h
      · rename_i p' hf
        cases h
        exact ⟨this.1, by rw [hl.finalize _ _ _ _ hf]; exact this.2⟩
    · rename_i c p hp
      exact read_trans (hS.1 _ _ _ hp) (body_read hl ha h)

theorem common_logs {s : SectionType}
    {signature : List Node → Nat → PD (List Nat) → Except Stop (Reply (List Nat) Layout)}
    {isDescription : Node → Bool} {nestedType : Node → SectionType}
    {nested : List Node → Nat → PD (List Nat) → Except Stop (Reply (List Nat) Unit)}
    {isUnexpected : Node → Bool} {child : SectionType → Parse (List Nat)}
    (hn : ∀ ns i pd, (∀ j x q, nested ns i pd = .ok (.done j x q) → j = i ∧ q.data = pd.data) ∧
      ∀ t q, nested ns i pd = .ok (.enter t q) → q.data = pd.data)
    (hc : ∀ t, ReadsOnce (child t)) :
    Logs (common s recorder signature isDescription nestedType nested isUnexpected) child where
  description ns i pd j q h := by
    simp only [common, Except.ok.injEq, Prod.mk.injEq] at h
    obtain ⟨rfl, rfl⟩ := h
    exact ⟨rfl, rfl⟩
  content _ _ := rfl
  preprocess ns i pd q h := by
    simp only [common, Except.ok.injEq] at h
    subst h; rfl
  entered ns i t pd q h := by
    simp only [common, Except.ok.injEq] at h
    subst h; rfl
  unexpected ns i last pd j q h := by
    simp only [common, Except.ok.injEq, Prod.mk.injEq] at h
    obtain ⟨rfl, rfl⟩ := h
    exact ⟨rfl, rfl⟩
  finalize ns i pd q h := by
    simp only [common, Except.ok.injEq] at h
    subst h; rfl
  nested := hn
  child := hc

theorem absent_reads : ReadsOnce (Grammar.absent (σ := List Nat)).parse := by
  intro ns i pd j q h
  simp only [Grammar.parse, Except.ok.injEq, Prod.mk.injEq] at h
  obtain ⟨rfl, rfl⟩ := h
  exact ⟨Nat.le_refl _, by simp⟩

theorem oneNode_read (s : SectionType) (ns : List Node) (i : Nat) (pd : PD (List Nat)) :
    (∀ j l q, oneNode s recorder ns i pd = .ok (.done j l q) → Read pd.data i j q) ∧
      ∀ t q, oneNode s recorder ns i pd = .ok (.enter t q) → q.data = pd.data := by
  unfold oneNode
  split
  · simp
  · refine ⟨fun j l q h => ?_, by simp⟩
    cases h
    exact read_one (read_refl i pd) rfl

/-- The functions that only call other parsers. -/
macro "calls" : tactic =>
  `(tactic| (intro ns i pd; refine ⟨fun j x q h => ?_, fun t q h => ?_⟩ <;>
    (split at h <;> cases h) <;> first | rfl | exact ⟨rfl, rfl⟩))

theorem action_reads (r : Recognise) {x : Others (List Nat)} (hx : OthersReadOnce x) :
    ReadsOnce (actionGrammar r recorder x).parse :=
  section_read (common_logs (by calls) hx.ofAction) (by simp) (fun ns i pd => oneNode_read _ _ _ _)

theorem resource_reads (r : Recognise) {x : Others (List Nat)} (hx : OthersReadOnce x) :
    ReadsOnce (resourceGrammar r recorder x).parse := by
  refine section_read (common_logs (by calls) ?_) (by simp) ?_
  · intro t
    unfold resourceChild
    split
    · exact action_reads r hx
    · exact hx.ofResource _
  · intro ns i pd
    simp only [resourceOwn, common, resourceSignature]
    split
    · simp
    · split
      · refine ⟨by simp, fun t q h => ?_⟩
        cases h; rfl
      · refine ⟨fun j l q h => ?_, by simp⟩
        cases h
        exact read_one (read_refl i pd) rfl

theorem group_reads (r : Recognise) {x : Others (List Nat)} (hx : OthersReadOnce x) :
    ReadsOnce (groupGrammar r recorder x).parse := by
  refine section_read (common_logs (by calls) ?_) (by simp) ?_
  · intro t
    unfold groupChild
    split
    · exact resource_reads r hx
    · exact absent_reads
  · intro ns i pd
    simp only [groupOwn, common, groupSignature]
    split
    · simp
    · split
      · refine ⟨fun j l q h => ?_, by simp⟩
        cases h
        exact read_refl _ _
      · refine ⟨fun j l q h => ?_, by simp⟩
        cases h
        exact read_one (read_refl i pd) rfl

theorem dataStructures_reads (r : Recognise) {x : Others (List Nat)} (hx : OthersReadOnce x) :
    ReadsOnce (dataStructuresGrammar r recorder x).parse := by
  refine section_read (common_logs (by calls) ?_) (by simp) (fun ns i pd => oneNode_read _ _ _ _)
  intro t
  unfold dataStructuresChild
  split
  · exact hx.namedType
  · exact absent_reads

theorem readMetadata_read (ns : List Node) : ∀ k i (pd : PD (List Nat)),
    Read pd.data i (i + k) (readMetadata recorder ns k i pd) := by
  intro k
  induction k with
  | zero => intro i pd; exact read_refl _ _
  | succ k ih =>
    intro i pd
    have := ih (i + 1) (pd.set (recorder.metadata ns i pd))
    have h1 : Read pd.data i (i + 1) (pd.set (recorder.metadata ns i pd)) :=
      read_one (read_refl i pd) rfl
    have h2 := read_trans h1 this
    rw [show i + (k + 1) = i + 1 + k by omega]
    exact h2

theorem blueprint_reads (r : Recognise) {x : Others (List Nat)} (hx : OthersReadOnce x) :
    ReadsOnce (blueprintGrammar r recorder x).parse := by
  refine section_read (common_logs (by calls) ?_) (by simp) ?_
  · intro t
    unfold blueprintChild
    split
    · exact group_reads r hx
    · exact dataStructures_reads r hx
    · exact absent_reads
  · intro ns i pd
    simp only [blueprintOwn, common, blueprintSignature]
    have hM := readMetadata_read ns (skipMetadata r ns i - i) i pd
    have hle : i ≤ skipMetadata r ns i := by unfold skipMetadata; omega
    rw [show i + (skipMetadata r ns i - i) = skipMetadata r ns i by omega] at hM
    split
    · refine ⟨fun j l q h => ?_, by simp⟩
      cases h
      exact hM
    · split
      · refine ⟨fun j l q h => ?_, by simp⟩
        cases h
        exact hM
      · refine ⟨fun j l q h => ?_, by simp⟩
        cases h
        exact read_one hM rfl

end Verif.Section
