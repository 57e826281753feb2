import Verif.Proof.Blueprint

/-!
# The parsers of header-defined sections raise no exception of their own
-/

namespace Verif.Section
open Verif.Spec.Section

variable {σ : Type}

theorem phase_err {is : Node → SectionType → Bool}
    {step : List Node → Nat → PD σ → Except Stop (Nat × PD σ)} {ns : List Node}
    (hstep : ∀ cur pd e, step ns cur pd ≠ .error e) :
    ∀ fuel cur pd e, phase is step ns fuel cur pd = .error e → e = .diverges := by
  intro fuel
  induction fuel with
  | zero =>
    intro cur pd e h
    rw [phase.eq_def] at h; dsimp only at h
    split at h
    · cases h
    · split at h <;> cases h
      rfl
  | succ fuel ih =>
    intro cur pd e h
    rw [phase.eq_def] at h; dsimp only at h
    split at h
    · cases h
    · split at h
      · split at h
        · rename_i e' he
          exact absurd he (hstep _ _ _)
        · split at h
          · cases h
          · exact ih _ _ _ h
      · cases h

theorem nestedLoop_err {o : Own σ} {skips : Bool} {child : SectionType → Parse σ} {ns : List Node}
    (hstep : ∀ n cur last (pd : PD σ) e, ns[cur]? = some n →
      nestedStep o skips child ns n cur last { pd with context := o.nestedType n :: pd.context } ≠
        .error e) :
    ∀ fuel cur last pd e, nestedLoop o skips child ns fuel cur last pd = .error e →
      e = .diverges := by
  intro fuel
  induction fuel with
  | zero =>
    intro cur last pd e h
    rw [nestedLoop.eq_def] at h; dsimp only at h
    split at h <;> cases h
    rfl
  | succ fuel ih =>
    intro cur last pd e h
    rw [nestedLoop.eq_def] at h; dsimp only at h
    split at h
    · cases h
    · rename_i n hn
      split at h
      · rename_i e' he
        exact absurd he (hstep _ _ _ _ _ hn)
      · split at h
        · cases h
        · exact ih _ _ _ _ h

/-- A processor none of whose own functions raises anything, and which calls another parser only
where that one raises nothing. -/
structure Quiet (o : Own σ) (child : SectionType → Parse σ) : Prop where
  description : ∀ ns i pd e, o.description ns i pd ≠ .error e
  content : ∀ ns i pd e, o.content ns i pd ≠ .error e
  preprocess : ∀ ns i pd e, o.preprocess ns i pd ≠ .error e
  entered : ∀ ns i t pd e, o.entered ns i t pd ≠ .error e
  unexpected : ∀ ns i last pd e, o.unexpected ns i last pd ≠ .error e
  finalize : ∀ ns i pd e, o.finalize ns i pd ≠ .error e
  nested : ∀ ns i pd n, ns[i]? = some n → o.nestedType n ≠ .undefined → pd.top = o.nestedType n →
    (∀ e, o.nested ns i pd ≠ .error e) ∧
      ∀ t pd', o.nested ns i pd = .ok (.enter t pd') → ∀ e, child t ns i pd' ≠ .error e

theorem nestedStep_err {o : Own σ} {skips : Bool} {child : SectionType → Parse σ} {ns : List Node}
    (hq : Quiet o child) (n : Node) (cur : Nat) (last : SectionType) (pd : PD σ) (e : Stop)
    (hn : ns[cur]? = some n) :
    nestedStep o skips child ns n cur last { pd with context := o.nestedType n :: pd.context } ≠
      .error e := by
  intro h
  unfold nestedStep at h
  split at h
  · rename_i hne
    have hN := hq.nested ns cur { pd with context := o.nestedType n :: pd.context } n hn hne rfl
    split at h
    · rename_i e' he
      exact hN.1 _ he
    · cases h
    · rename_i t pd' ht
      split at h
      · rename_i e' he
        exact hN.2 _ _ ht _ he
      · split at h
        · rename_i e' he
          exact hq.entered _ _ _ _ _ he
        · cases h
  · split at h
    · exact hq.unexpected _ _ _ _ _ h
    · cases h

theorem closing_err {o : Own σ} {a : Adapter} {child : SectionType → Parse σ} (hq : Quiet o child)
    {siblings : List Node} {seed : Nat} {ns : List Node} {cur : Nat} {pd : PD σ} {e : Stop}
    (h : closing o a child siblings seed ns cur pd = .error e) : e = .diverges := by
  unfold closing at h
  split at h
  · rename_i e' he
    cases h
    unfold parseNested at he
    split at he
    · rename_i e'' he'
      exact absurd he' (hq.preprocess _ _ _ _)
    · exact nestedLoop_err (fun n cur last pd e hn => nestedStep_err hq n cur last pd e hn) _ _ _ _ _
        he
  · split at h
    · rename_i e' he
      exact absurd he (hq.finalize _ _ _ _)
    · cases h

theorem body_err {o : Own σ} {a : Adapter} {child : SectionType → Parse σ} (hq : Quiet o child)
    {siblings : List Node} {seed : Nat} {ns : List Node} {start cur : Nat} {pd : PD σ} {e : Stop}
    (h : body o a child siblings seed ns start cur pd = .error e) : e = .diverges := by
  unfold body at h
  split at h
  · cases h
  · split at h
    · rename_i e' he
      cases h
      exact phase_err (fun c p e => hq.description _ _ _ _) _ _ _ _ he
    · cases h
    · split at h
      · rename_i e' he
        cases h
        exact phase_err (fun c p e => hq.content _ _ _ _) _ _ _ _ he
      · cases h
      · exact closing_err hq h

theorem parseSection_err {o : Own σ} {a : Adapter} {child : SectionType → Parse σ}
    (hq : Quiet o child) {siblings : List Node} {seed : Nat} {pd : PD σ} {start : Nat}
    {ns : List Node} (hst : a.start siblings seed = .ok (start, ns))
    (hs : ∀ e, o.signature ns start pd ≠ .error e)
    (he : ∀ t pd', o.signature ns start pd = .ok (.enter t pd') →
      ∀ e, child t ns start pd' ≠ .error e) {e : Stop}
    (h : parseSection o a child siblings seed pd = .error e) : e = .diverges := by
  unfold parseSection at h
  rw [hst] at h
  simp only at h
  split at h
  · rename_i e' hse
    exact absurd hse (hs _)
  · rename_i t pd' ht
    split at h
    · rename_i e' hce
      exact absurd hce (he _ _ ht _)
    · split at h
      · rename_i e' hee
        exact absurd hee (hq.entered _ _ _ _ _)
      · split at h
        · rename_i e' hfe
          exact absurd hfe (hq.finalize _ _ _ _)
        · cases h
  · exact closing_err hq h
  · split at h
    · rename_i e' hfe
      exact absurd hfe (hq.finalize _ _ _ _)
    · cases h
  · exact body_err hq h

/-- A parser that returns when it is called at a header. -/
def Returns (p : Parse σ) : Prop :=
  ∀ ns i pd n, ns[i]? = some n → n.kind = .header → ∀ e, p ns i pd ≠ .error e

theorem common_quiet {s : SectionType} {h : Handlers σ}
    {signature : List Node → Nat → PD σ → Except Stop (Reply σ Layout)}
    {isDescription : Node → Bool} {nestedType : Node → SectionType}
    {nested : List Node → Nat → PD σ → Except Stop (Reply σ Unit)} {isUnexpected : Node → Bool}
    {child : SectionType → Parse σ}
    (hn : ∀ ns i pd n, ns[i]? = some n → nestedType n ≠ .undefined → pd.top = nestedType n →
      (∀ e, nested ns i pd ≠ .error e) ∧
      ∀ t pd', nested ns i pd = .ok (.enter t pd') → ∀ e, child t ns i pd' ≠ .error e) :
    Quiet (common s h signature isDescription nestedType nested isUnexpected) child where
  description _ _ _ _ := by simp [common]
  content _ _ _ _ := by simp [common]
  preprocess _ _ _ _ := by simp [common]
  entered _ _ _ _ _ := by simp [common]
  unexpected _ _ _ _ _ := by simp [common]
  finalize _ _ _ _ := by simp [common]
  nested := hn

theorem ofList_kind {n : Node} {t : SectionType} (h : Recognise.ofList n t ≠ .undefined) :
    n.kind = .listItem := by
  unfold Recognise.ofList at h
  split at h
  · rename_i hh; exact hh.1
  · exact absurd rfl h

theorem start_header {ns : List Node} {i : Nat} {n : Node} (hn : ns[i]? = some n)
    (hk : n.kind = .header) : Adapter.header.start ns i = .ok (i, ns) := by
  simp [Adapter.start, hn, hk]

/-- From "only an endless loop" to "no error". -/
theorem returns_of {g : Grammar σ} (hg : AllObey g)
    (h : ∀ ns i pd n e, ns[i]? = some n → n.kind = .header → g.parse ns i pd = .error e →
      e = .diverges) : Returns g.parse := by
  intro ns i pd n hn hk e he
  have := h ns i pd n e hn hk he
  subst this
  exact (parse_rules g hg ns i pd (Nat.le_of_lt (lt_of_some hn))).1 he

/-! ## Actions -/

theorem actionNested_list (r : Recognise) (n : Node) (h : r.actionNested n ≠ .undefined) :
    n.kind = .listItem := by
  obtain ⟨t, ht, hne, _⟩ := first_cases _ h
  simp only [List.mem_cons, List.not_mem_nil, or_false] at ht
  rcases ht with rfl | rfl | rfl | rfl | rfl <;> exact ofList_kind hne

theorem action_returns (r : Recognise) (h : Handlers σ) {x : Others σ} (hx : OthersObey x)
    (hr : OthersReturn x) : Returns (actionGrammar r h x).parse := by
  refine returns_of (action_allObey r h hx) (fun ns i pd n e hn hk he => ?_)
  refine parseSection_err (common_quiet (fun ns i pd n hn hne _ => ⟨?_, ?_⟩))
    (start_header hn hk) ?_ ?_ he
  · intro e; split <;> simp
  · have hl := actionNested_list r n hne
    intro t pd' ht e
    exact hr.ofAction t ns i pd' n hn hl e
  · intro e; simp [actionOwn, common, oneNode, hn]
  · intro t pd'; simp [actionOwn, common, oneNode, hn]

/-! ## Resources -/

theorem resourceNested_cases (r : Recognise) (n : Node) (h : r.resourceNested n ≠ .undefined) :
    (n.kind = .listItem ∧ r.resourceNested n ≠ .action) ∨
      (n.kind = .header ∧ r.resourceNested n = .action) := by
  obtain ⟨t, ht, hne, he⟩ := first_cases _ h
  have hlist : ∀ m : Node, ∀ b : Bool, ∀ u : SectionType, u ≠ .action →
      Recognise.ofList m (Recognise.when b u) ≠ .action := by
    intro m b u hu
    unfold Recognise.ofList Recognise.when
    split
    · split
      · exact hu
      · simp
    · simp
  simp only [List.mem_cons, List.not_mem_nil, or_false] at ht
  rw [Recognise.resourceNested, he]
  rcases ht with rfl | rfl | rfl | rfl | rfl
  · exact .inl ⟨ofList_kind hne, hlist _ _ _ (by simp)⟩
  · exact .inl ⟨ofList_kind hne, hlist _ _ _ (by simp)⟩
  · refine .inl ⟨?_, ?_⟩
    · have : r.payloadType n ≠ .undefined := by
        intro h0
        rw [h0] at hne
        exact hne rfl
      exact ofList_kind this
    · unfold Recognise.modelOnly
      split <;> simp
  · exact .inl ⟨ofList_kind hne, hlist _ _ _ (by simp)⟩
  · right
    unfold Recognise.dependentAction at hne ⊢
    split at hne
    · rename_i hh
      rw [if_pos hh]
      have : r.actionSectionType n ≠ .undefined := by rw [hh.1]; simp
      exact ⟨(ofHeader_kind this).1, rfl⟩
    · exact absurd rfl hne

theorem resource_returns (r : Recognise) (h : Handlers σ) {x : Others σ} (hx : OthersObey x)
    (hr : OthersReturn x) : Returns (resourceGrammar r h x).parse := by
  refine returns_of (resource_allObey r h hx) (fun ns i pd n e hn hk he => ?_)
  refine parseSection_err (common_quiet (fun ns i pd n hn hne htop => ⟨?_, ?_⟩))
    (start_header hn hk) ?_ ?_ he
  · intro e; split <;> simp
  · rcases resourceNested_cases r n hne with ⟨hl, hna⟩ | ⟨hh, ha⟩
    · intro t pd' ht e
      have hta : t ≠ .action := by
        intro h0
        subst h0
        split at ht <;> try cases ht
        rename_i h'
        exact hna (by rw [← htop, h'])
      have : resourceChild r h x t = x.ofResource t := by
        unfold resourceChild
        split
        · exact absurd rfl hta
        · rfl
      rw [this]
      exact hr.ofResource t ns i pd' n hn hl e
    · intro t pd' ht e
      rw [ha] at htop
      rw [htop] at ht
      cases ht
      exact action_returns r h hx hr ns i _ n hn hh e
  · intro e
    simp only [resourceOwn, common, resourceSignature, hn]
    split <;> simp
  · intro t pd' ht e
    simp only [resourceOwn, common, resourceSignature, hn] at ht
    split at ht
    · cases ht
      exact action_returns r h hx hr ns i _ n hn hk e
    · cases ht

/-! ## Groups -/

theorem group_returns (r : Recognise) (h : Handlers σ) {x : Others σ} (hx : OthersObey x)
    (hr : OthersReturn x) : Returns (groupGrammar r h x).parse := by
  refine returns_of (group_allObey r h hx) (fun ns i pd n e hn hk he => ?_)
  refine parseSection_err (common_quiet (fun ns i pd n hn hne htop => ⟨?_, ?_⟩))
    (start_header hn hk) ?_ ?_ he
  · intro e; split <;> simp
  · intro t pd' ht e
    have hk' := ofHeader_kind hne
    split at ht <;> cases ht
    exact resource_returns r h hx hr ns i _ n hn hk'.1 e
  · intro e
    simp only [groupOwn, common, groupSignature, hn]
    split <;> simp
  · intro t pd' ht e
    simp only [groupOwn, common, groupSignature, hn] at ht
    split at ht <;> cases ht

theorem dataStructures_returns (r : Recognise) (h : Handlers σ) {x : Others σ} (hx : OthersObey x)
    (hr : OthersReturn x) : Returns (dataStructuresGrammar r h x).parse := by
  refine returns_of (dataStructures_allObey r h hx) (fun ns i pd n e hn hk he => ?_)
  refine parseSection_err (common_quiet (fun ns i pd n hn hne htop => ⟨?_, ?_⟩))
    (start_header hn hk) ?_ ?_ he
  · intro e; split <;> simp
  · intro t pd' ht e
    have hk' : n.kind = .header := by
      unfold Recognise.namedTypeType at hne
      split at hne
      · rename_i hh; exact hh.1
      · exact absurd rfl hne
    split at ht <;> cases ht
    exact hr.namedType ns i _ n hn hk' e
  · intro e; simp [dataStructuresOwn, common, oneNode, hn]
  · intro t pd'; simp [dataStructuresOwn, common, oneNode, hn]

/-! ## The document -/

/-- If no list-defined section and no named type raises an exception, the document is read to its
end. -/
theorem blueprint_returns (r : Recognise) (h : Handlers σ) {x : Others σ} (hx : OthersObey x)
    (hr : OthersReturn x) (ns : List Node) (pd : PD σ) :
    ∃ q, (blueprintGrammar r h x).parse ns 0 pd = .ok (ns.length, q) ∧ q.context = pd.context := by
  have hall := blueprint_allObey r h hx
  have hR := parse_rules _ hall ns 0 pd (Nat.zero_le _)
  cases hp : (blueprintGrammar r h x).parse ns 0 pd with
  | ok v =>
    obtain ⟨j, q⟩ := v
    have := blueprint_end r h hx ns pd j q hp
    subst this
    exact ⟨q, rfl, (hR.2 _ _ hp).2.2⟩
  | error e =>
    exfalso
    have hd : e = .diverges := by
      refine parseSection_err (common_quiet (fun ns i pd n hn hne htop => ⟨?_, ?_⟩))
        (start := 0) (ns := ns) rfl ?_ ?_ hp
      · intro e; split <;> simp
      · intro t pd' ht e
        have hk := (blueprintNested_cases r n hne).1
        split at ht <;> cases ht
        · exact group_returns r h hx hr ns i _ n hn hk e
        · exact group_returns r h hx hr ns i _ n hn hk e
        · exact dataStructures_returns r h hx hr ns i _ n hn hk e
      · intro e
        simp only [blueprintOwn, common, blueprintSignature]
        split
        · simp
        · split <;> simp
      · intro t pd' ht
        simp only [blueprintOwn, common, blueprintSignature] at ht
        split at ht
        · cases ht
        · split at ht <;> cases ht
    subst hd
    exact hR.1 hp

end Verif.Section
