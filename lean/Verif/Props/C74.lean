import Verif.Proof.RecogniseUnique
/-!
# C74: which headers are resources, actions, groups and data structures
-/
namespace Verif.Props
open Verif Verif.Text Verif.Regex Verif.Spec Verif.Spec.Regex Verif.Spec.Recognition Verif.Section Verif.Recognition

/-! ## The matcher of regular expressions -/

/-- C74: matching finds a match exactly if there is one. -/
theorem C74_match (text expression : Bytes) (p : Pattern) (hp : compile expression = some p) (ht : text ≠ [])
    (he : expression ≠ []) :
    regexMatch text expression = true ↔ ∃ before m after, cstr text = before ++ m ++ after ∧ Fits p before m after := by
  unfold regexMatch
  rw [if_neg (by simp [ht, he])]
  simp only [hp]
  cases hs : search p (cstr text) with
  | some m =>
    obtain ⟨b, a, h⟩ := search_chosen hs
    simp only [Option.isSome_some, true_iff]
    exact ⟨b, m, a, h.1, h.2.1⟩
  | none =>
    simp only [Option.isSome_none, Bool.false_eq_true, false_iff]
    rintro ⟨b, m, a, h1, h2⟩
    exact search_none hs b m a h1 h2

/-- C74: of several matches the leftmost is taken and of those the longest. -/
theorem C74_capture (text expression : Bytes) (p : Pattern) (hp : compile expression = some p) (k : Nat) (hk : 0 < k)
    (groups : List Bytes) (h : regexCapture text expression k = some groups) :
    ∃ before after, Chosen p (cstr text) before (groups.getD 0 []) after := by
  unfold regexCapture at h
  split at h
  · simp at h
  · simp only [hp] at h
    cases hs : search p (cstr text) with
    | none => simp [hs] at h
    | some m =>
      simp only [hs, Option.some.injEq] at h
      obtain ⟨b, a, hc⟩ := search_chosen hs
      subst h
      rw [getD_range hk]
      exact ⟨b, a, hc⟩

/-! ## Which headers are which -/

/-- A header of that text. -/
def header (text : String) : Node := .mk .header (str text) [] []


theorem resource_form {t} : (regexMatch t namedResourceHeaderRegex || regexMatch t namedEndpointHeaderRegex ||
    regexMatch t resourceHeaderRegex) = true ↔ ResourceForm (cstr t) := by
  simp only [Bool.or_eq_true, m_namedResource, m_namedEndpoint, m_resource, ResourceForm]
  constructor
  · rintro ((h | h) | h | h)
    · exact .inr (.inr (.inl h))
    · exact .inr (.inr (.inr h))
    · exact .inl h
    · exact .inr (.inl h)
  · rintro (h | h | h | h)
    · exact .inr (.inl h)
    · exact .inr (.inr h)
    · exact .inl (.inl h)
    · exact .inl (.inr h)

theorem resourceForm_ne {s} (h : ResourceForm s) : s ≠ [] := by rintro rfl; exact absurd (resource_slash h) (by simp)
theorem actionForm_ne {s} (h : ActionForm s) : s ≠ [] := by
  rcases h with ⟨_, _, h⟩ | ⟨_, _, _, h⟩
  · exact actionLine_ne h
  · exact namedActionLine_ne h

theorem seen_nonempty {text s} (h : Seen text s) (hs : s ≠ []) : text ≠ [] := by
  rintro rfl
  rw [seen_iff] at h
  exact hs (by rw [h]; decide)

theorem ofHeader_iff {n : Node} {b : Bool} {t : SectionType} (ht : t ≠ .undefined) :
    Recognise.ofHeader n b t = t ↔ n.kind = .header ∧ n.text ≠ [] ∧ b = true := by
  unfold Recognise.ofHeader
  split
  · simpa using ‹_›
  · constructor
    · intro h; exact absurd h.symm ht
    · intro h; contradiction

/-- C74: a block is a resource exactly if it is a header in one of the forms of resources. -/
theorem C74_resource (n : Node) :
    recognise.resourceType n = .resource ↔ n.kind = .header ∧ ∃ s, Seen n.text s ∧ ResourceForm s := by
  rw [Recognise.resourceType, ofHeader_iff (by decide)]
  show _ ∧ _ ∧ isResource n.text = true ↔ _
  rw [isResource, resource_form, ← exists_seen (P := ResourceForm)]
  constructor
  · rintro ⟨h1, _, h2⟩; exact ⟨h1, h2⟩
  · rintro ⟨h1, s, h2, h3⟩; exact ⟨h1, seen_nonempty h2 (resourceForm_ne h3), s, h2, h3⟩

/-- C74: a block is an action exactly if it is a header in one of the forms of actions. -/
theorem C74_action (n : Node) :
    recognise.actionSectionType n = .action ↔ n.kind = .header ∧ ∃ s, Seen n.text s ∧ ActionForm s := by
  rw [Recognise.actionSectionType, ofHeader_iff (by decide)]
  show _ ∧ _ ∧ (isAction n.text || isNamedAction n.text) = true ↔ _
  rw [Bool.or_eq_true, isAction, isNamedAction, m_action, m_namedAction]
  rw [show ((∃ m u, ActionLine (cstr (trim n.text)) m u) ∨ ∃ n' m u, NamedActionLine (cstr (trim n.text)) n' m u) ↔ _
    from (exists_seen (text := n.text) (P := ActionForm)).symm]
  constructor
  · rintro ⟨h1, _, h2⟩; exact ⟨h1, h2⟩
  · rintro ⟨h1, s, h2, h3⟩; exact ⟨h1, seen_nonempty h2 (actionForm_ne h3), s, h2, h3⟩

/-- C74: a block is a group exactly if it is a header `Group name`. -/
theorem C74_group (n : Node) :
    recognise.groupType n = .resourceGroup ↔ n.kind = .header ∧ ∃ s name, Seen n.text s ∧ GroupLine s name := by
  rw [Recognise.groupType, ofHeader_iff (by decide)]
  show _ ∧ _ ∧ isGroup n.text = true ↔ _
  rw [isGroup, m_group]
  constructor
  · rintro ⟨h1, _, name, h2⟩; exact ⟨h1, _, name, seen_iff.mpr rfl, h2⟩
  · rintro ⟨h1, s, name, h2, h3⟩
    exact ⟨h1, seen_nonempty h2 (groupLine_ne h3), name, seen_iff.mp h2 ▸ h3⟩

/-- C74: a block starts the data structures exactly if it is a header whose (first) line says so. -/
theorem C74_data (n : Node) :
    recognise.dataStructuresType n = .dataStructureGroup ↔
      n.kind = .header ∧ ∃ l s, FirstLine n.text l ∧ Seen l s ∧ DataLine s := by
  rw [Recognise.dataStructuresType, ofHeader_iff (by decide)]
  show _ ∧ _ ∧ isDataStructures n.text = true ↔ _
  rw [isDataStructures, m_data]
  constructor
  · rintro ⟨h1, _, h2⟩; exact ⟨h1, _, _, firstLine_iff.mpr rfl, seen_iff.mpr rfl, h2⟩
  · rintro ⟨h1, l, s, hl, h2, h3⟩
    refine ⟨h1, ?_, ?_⟩
    · have := seen_nonempty h2 (dataLine_ne h3)
      intro h0
      rw [firstLine_iff, h0] at hl
      exact this (hl ▸ by decide)
    · rw [← firstLine_iff.mp hl, ← seen_iff.mp h2]; exact h3

/-- C74: no header is two of resource, group and data structures, nor both an action and a group or data structures. -/
theorem C74_exclusive (s : Bytes) :
    (ResourceForm s → ¬ (∃ n, GroupLine s n) ∧ ¬ DataLine s) ∧ (ActionForm s → ¬ (∃ n, GroupLine s n) ∧ ¬ DataLine s) ∧
      ((∃ n, GroupLine s n) → ¬ DataLine s) :=
  ⟨fun h => ⟨fun ⟨_, hg⟩ => resource_not_group h hg, fun hd => resource_not_data h hd⟩,
   fun h => ⟨fun ⟨_, hg⟩ => action_not_group h hg, fun hd => action_not_data h hd⟩,
   fun ⟨_, hg⟩ hd => group_not_data hg hd⟩

theorem firstLine_one {text : Bytes} (h : asc '\n' ∉ text) : (getFirstLine text).1 = text :=
  (firstLine_iff.mp ⟨h, .inl rfl⟩).symm

theorem first_cases {l : List SectionType} {t : SectionType} (h : Recognise.first l = t) :
    t = .undefined ∨ t ∈ l := by
  induction l with
  | nil => exact .inl h.symm
  | cons a l ih =>
    rw [Recognise.first] at h
    split at h
    · exact .inr (by simp [h])
    · rcases ih h with h | h
      · exact .inl h
      · exact .inr (by simp [h])

theorem ofHeader_values (n : Node) (b : Bool) (t : SectionType) :
    Recognise.ofHeader n b t = t ∨ Recognise.ofHeader n b t = .undefined := by
  unfold Recognise.ofHeader; split <;> simp

/-- C74: at the top level of a document a header is a resource, a group or the data structures exactly if it has the form of
it, and any other block is none of these. -/
theorem C74_top (n : Node) (h1 : asc '\n' ∉ n.text) :
    (recognise.blueprintNested n = .resource ↔ n.kind = .header ∧ ∃ s, Seen n.text s ∧ ResourceForm s) ∧
    (recognise.blueprintNested n = .resourceGroup ↔ n.kind = .header ∧ ∃ s name, Seen n.text s ∧ GroupLine s name) ∧
    (recognise.blueprintNested n = .dataStructureGroup ↔ n.kind = .header ∧ ∃ s, Seen n.text s ∧ DataLine s) ∧
    (recognise.blueprintNested n = .undefined ↔ n.kind = .header →
      ∀ s, Seen n.text s → ¬ ResourceForm s ∧ (¬ ∃ name, GroupLine s name) ∧ ¬ DataLine s) := by
  have hd : recognise.dataStructuresType n = .dataStructureGroup ↔ n.kind = .header ∧ ∃ s, Seen n.text s ∧ DataLine s := by
    rw [C74_data]
    refine and_congr_right fun _ => ⟨?_, ?_⟩
    · rintro ⟨l, s, hl, h2, h3⟩; rw [firstLine_iff, firstLine_one h1] at hl; exact ⟨s, hl ▸ h2, h3⟩
    · rintro ⟨s, h2, h3⟩; exact ⟨_, s, firstLine_iff.mpr (firstLine_one h1).symm, h2, h3⟩
  have ex := C74_exclusive (cstr (trim n.text))
  rw [← C74_resource, ← C74_group, ← hd]
  have hr := C74_resource n
  have hg := C74_group n
  simp only [seen_iff] at hr hg hd
  have v1 : recognise.resourceType n = .resource ∨ recognise.resourceType n = .undefined := ofHeader_values ..
  have v2 : recognise.groupType n = .resourceGroup ∨ recognise.groupType n = .undefined := ofHeader_values ..
  have v3 : recognise.dataStructuresType n = .dataStructureGroup ∨ recognise.dataStructuresType n = .undefined :=
    ofHeader_values ..
  have e12 : recognise.resourceType n = .resource → recognise.groupType n = .undefined := by
    intro h
    rcases v2 with h' | h'
    · obtain ⟨_, s, rfl, hs⟩ := hr.mp h
      obtain ⟨_, s, name, rfl, hs'⟩ := hg.mp h'
      exact absurd ⟨name, hs'⟩ (ex.1 hs).1
    · exact h'
  have e13 : recognise.resourceType n = .resource → recognise.dataStructuresType n = .undefined := by
    intro h
    rcases v3 with h' | h'
    · obtain ⟨_, s, rfl, hs⟩ := hr.mp h
      obtain ⟨_, s, rfl, hs'⟩ := hd.mp h'
      exact absurd hs' (ex.1 hs).2
    · exact h'
  have e23 : recognise.groupType n = .resourceGroup → recognise.dataStructuresType n = .undefined := by
    intro h
    rcases v3 with h' | h'
    · obtain ⟨_, s, name, rfl, hs⟩ := hg.mp h
      obtain ⟨_, s, rfl, hs'⟩ := hd.mp h'
      exact absurd hs' (ex.2.2 ⟨name, hs⟩)
    · exact h'
  have hu : (n.kind = .header → ∀ s, Seen n.text s → ¬ ResourceForm s ∧ (¬ ∃ name, GroupLine s name) ∧ ¬ DataLine s) ↔
      recognise.resourceType n ≠ .resource ∧ recognise.groupType n ≠ .resourceGroup ∧
        recognise.dataStructuresType n ≠ .dataStructureGroup := by
    rw [Ne, Ne, Ne, hr, hg, hd]
    simp only [seen_iff, forall_eq, exists_eq_left]
    constructor
    · intro h
      refine ⟨fun h' => (h h'.1).1 h'.2, ?_, fun h' => (h h'.1).2.2 h'.2⟩
      rintro ⟨hk, s, name, rfl, hl⟩; exact (h hk).2.1 ⟨name, hl⟩
    · rintro ⟨h1, h2, h3⟩ hk
      exact ⟨fun h => h1 ⟨hk, h⟩, fun ⟨name, h⟩ => h2 ⟨hk, _, name, rfl, h⟩, fun h => h3 ⟨hk, h⟩⟩
  rw [hu]
  unfold Recognise.blueprintNested
  rcases v1 with h | h <;> rcases v2 with h' | h' <;> rcases v3 with h'' | h'' <;> rw [h, h', h''] <;>
    simp_all [Recognise.first]

/-! ## The keyword of a header -/

/-- The header is read as a section of an MSON type: default, sample, items or properties. -/
def TypeSectionForm (s : Bytes) : Prop := DefaultLine s ∨ SampleLine s ∨ ItemsLine s ∨ PropertiesLine s

theorem typeSection_header {n : Node} (hk : n.kind = .header) (ht : n.text ≠ []) (h1 : asc '\n' ∉ n.text) :
    recognise.typeSectionType n ≠ .undefined ↔ TypeSectionForm (cstr (trim n.text)) := by
  rw [Recognise.typeSectionType, if_pos (.inl ⟨hk, ht⟩)]
  show typeSectionOf n ≠ _ ↔ _
  unfold typeSectionOf
  simp only [hk, ht, ne_eq, not_false_eq_true, and_self, if_true, firstLine_one h1]
  unfold TypeSectionForm
  rw [← m_default, ← m_sample, ← m_valueMembers, ← m_propertyMembers]
  split
  · rename_i h; simp only [Bool.or_eq_true] at h; rcases h with h | h <;> simp [h]
  · rename_i h; simp only [Bool.or_eq_true, not_or] at h
    split
    · rename_i h'; simp [h']
    · rename_i h'
      split
      · rename_i h''; simp [h'']
      · rename_i h''; simp [h, h', h'']

/-- The keyword of a header: what ends the section before it. -/
theorem C74_keyword (n : Node) (hk : n.kind = .header) (h1 : asc '\n' ∉ n.text) (s : Bytes) (hs : Seen n.text s)
    (hn : ¬ TypeSectionForm s) :
    (recognise.keyword n = .resource ↔ ResourceForm s) ∧
    (recognise.keyword n = .action ↔ ActionForm s ∧ ¬ ResourceForm s) ∧
    (recognise.keyword n = .resourceGroup ↔ ∃ name, GroupLine s name) ∧
    (recognise.keyword n = .dataStructureGroup ↔ DataLine s) ∧
    (recognise.keyword n = .undefined ↔
      ¬ ResourceForm s ∧ ¬ ActionForm s ∧ (¬ ∃ name, GroupLine s name) ∧ ¬ DataLine s) := by
  have hseen := hs
  rw [seen_iff] at hs
  have hd : recognise.dataStructuresType n = .dataStructureGroup ↔ DataLine s := by
    rw [C74_data]
    constructor
    · rintro ⟨_, l, s', hl, h2, h3⟩; rw [firstLine_iff, firstLine_one h1] at hl; subst hl
      rw [seen_iff] at h2; rw [hs, ← h2]; exact h3
    · intro h; exact ⟨hk, _, s, firstLine_iff.mpr (firstLine_one h1).symm, hseen, h⟩
  have hr : recognise.resourceType n = .resource ↔ ResourceForm s := by
    rw [C74_resource]; simp only [seen_iff, hk, true_and, exists_eq_left, ← hs]
  have ha : recognise.actionSectionType n = .action ↔ ActionForm s := by
    rw [C74_action]; simp only [seen_iff, hk, true_and, exists_eq_left, ← hs]
  have hg : recognise.groupType n = .resourceGroup ↔ ∃ name, GroupLine s name := by
    rw [C74_group]; simp only [seen_iff, hk, true_and, exists_and_left, exists_eq_left, ← hs]
  have ex := C74_exclusive s
  have hts : recognise.typeSectionType n = .undefined := by
    by_cases ht : n.text = []
    · simp [Recognise.typeSectionType, ht, hk]
    · have := typeSection_header hk ht h1
      rw [← hs] at this
      exact Decidable.not_not.mp fun h => hn (this.mp h)
  have l0 : ∀ t, Recognise.ofList n t = .undefined := by intro t; simp [Recognise.ofList, hk]
  have v1 : recognise.resourceType n = .resource ∨ recognise.resourceType n = .undefined := ofHeader_values ..
  have v2 : recognise.groupType n = .resourceGroup ∨ recognise.groupType n = .undefined := ofHeader_values ..
  have v3 : recognise.dataStructuresType n = .dataStructureGroup ∨ recognise.dataStructuresType n = .undefined :=
    ofHeader_values ..
  have v4 : recognise.actionSectionType n = .action ∨ recognise.actionSectionType n = .undefined := ofHeader_values ..
  rw [← hr, ← ha, ← hg, ← hd] at ex ⊢
  have hkey : recognise.keyword n = Recognise.first [recognise.resourceType n, recognise.actionSectionType n,
      recognise.groupType n, recognise.dataStructuresType n] := by
    unfold Recognise.keyword Recognise.mixinType Recognise.oneOfType Recognise.headersType Recognise.assetType
      Recognise.attributesType Recognise.payloadType Recognise.valuesType Recognise.parametersType Recognise.relationType
    simp only [l0, hts, Recognise.first, ne_eq, not_true_eq_false, if_false]
  rw [hkey]
  rcases v1 with h | h <;> rcases v2 with h' | h' <;> rcases v3 with h'' | h'' <;> rcases v4 with h4 | h4 <;>
    rw [h, h', h'', h4] at ex ⊢ <;> simp_all [Recognise.first]

theorem action_slash {s m} (h : ActionLine s m []) : asc '/' ∉ s := by
  obtain ⟨a, b, rfl, ha, hm, hb, _⟩ := h
  simp only [List.append_nil, List.mem_append, not_or]
  exact ⟨⟨blanks_no ha (by decide) (by decide), method_no hm (by decide)⟩, blanks_no hb (by decide) (by decide)⟩

/-- C74: the kind of action a header stands for. -/
theorem C74_action_type (n : Node) (hk : n.kind = .header) (s : Bytes) (hs : Seen n.text s) :
    (recognise.actionType n = .dependent ↔ (∃ name m u, NamedActionLine s name m u) ∨ ∃ m, ActionLine s m []) ∧
    (recognise.actionType n = .complete ↔ (¬ ∃ name m u, NamedActionLine s name m u) ∧ ∃ m u, Path u ∧ ActionLine s m u) ∧
    (recognise.actionType n = .notAction ↔ ¬ ActionForm s) := by
  have hseen := hs
  rw [seen_iff] at hs
  have hn : recognise.namedAction n.text = true ↔ ∃ name m u, NamedActionLine s name m u := by
    show isNamedAction n.text = true ↔ _
    rw [isNamedAction, m_namedAction, hs]
  have ha : recognise.action n.text = true ↔ ∃ m u, ActionLine s m u := by
    show isAction n.text = true ↔ _
    rw [isAction, m_action, hs]
  have hu : ∀ m u, ActionLine s m u → recognise.actionUri n.text = !u.isEmpty := by
    intro m u h
    show actionHasUri n.text = _
    unfold actionHasUri
    have hl : Lang xAction (cstr (trim n.text)) := L_action.mpr ⟨m, u, hs ▸ h⟩
    obtain ⟨g, h1, h2⟩ := regexCapture_full 3 c_action (by decide) n_action hl
    rw [h1]
    simp only []
    have h3 := h2 2 (by omega)
    obtain ⟨a, m', b, u', he, g1, g2, g3, g4, _, g6⟩ := g_action hl
    rw [if_neg (by decide)] at h3
    rw [h3]
    have := (actionLine_unique h ⟨a, b, hs ▸ he, g1, g2, g3, g4⟩).2
    rw [this, ← g6]; rfl
  unfold Recognise.actionType
  by_cases ht : n.text = []
  · rw [if_pos (.inr ht)]
    have hs0 : s = [] := by rw [hs, ht]; decide
    subst hs0
    refine ⟨⟨nofun, ?_⟩, ⟨nofun, ?_⟩, ⟨fun _ h => actionForm_ne h rfl, fun _ => rfl⟩⟩
    · rintro (⟨_, _, _, h⟩ | ⟨_, h⟩)
      · exact absurd rfl (namedActionLine_ne h)
      · exact absurd rfl (actionLine_ne h)
    · rintro ⟨_, _, _, _, h⟩; exact absurd rfl (actionLine_ne h)
  · rw [if_neg (by simp [hk, ht])]
    by_cases h1 : ∃ name m u, NamedActionLine s name m u
    · rw [if_pos (hn.mpr h1)]
      exact ⟨⟨fun _ => .inl h1, fun _ => rfl⟩, ⟨nofun, fun h => absurd h1 h.1⟩, ⟨nofun, fun h => absurd (.inr h1) h⟩⟩
    · rw [if_neg (fun h => h1 (hn.mp h))]
      by_cases h2 : ∃ m u, ActionLine s m u
      · rw [if_pos (ha.mpr h2)]
        obtain ⟨m, u, h3⟩ := h2
        rw [hu m u h3]
        have hform : ActionForm s := .inl ⟨m, u, h3⟩
        have hpu : u = [] ∨ Path u := h3.choose_spec.choose_spec.2.2.2.2
        rcases hpu with rfl | hp
        · refine ⟨⟨fun _ => .inr ⟨m, h3⟩, fun _ => rfl⟩, ⟨nofun, ?_⟩, ⟨nofun, fun h => absurd hform h⟩⟩
          rintro ⟨_, m', u', hp', h4⟩
          exact absurd (actionLine_unique h3 h4).2.symm (path_ne hp')
        · have : u.isEmpty = false := by have := path_ne hp; simpa using this
          rw [this]
          refine ⟨⟨nofun, ?_⟩, ⟨fun _ => ⟨h1, m, u, hp, h3⟩, fun _ => rfl⟩, ⟨nofun, fun h => absurd hform h⟩⟩
          rintro (h | ⟨m', h⟩)
          · exact absurd h h1
          · exact absurd (actionLine_unique h3 h).2 (path_ne hp)
      · rw [if_neg (fun h => h2 (ha.mp h))]
        refine ⟨⟨nofun, ?_⟩, ⟨nofun, ?_⟩, ⟨fun _ h => ?_, fun _ => rfl⟩⟩
        · rintro (h | ⟨m, h⟩)
          · exact absurd h h1
          · exact absurd ⟨m, _, h⟩ h2
        · rintro ⟨_, m, u, _, h⟩; exact absurd ⟨m, u, h⟩ h2
        · rcases h with h | h
          · exact h2 h
          · exact h1 h

/-- C74: a resource header that is no named action and does not read as a section of an MSON type ends the resource before it:
it is neither part of its description, nor nested in it, nor unexpected. -/
theorem C74_resource_ends {σ : Type} (h : Handlers σ) (n : Node) (pd : SectionType) (hk : n.kind = .header)
    (h1 : asc '\n' ∉ n.text) (s : Bytes) (hs : Seen n.text s) (hn : ¬ TypeSectionForm s) (hr : ResourceForm s)
    (ha : ¬ ∃ name m u, NamedActionLine s name m u) :
    (resourceOwn recognise h).isDescription n pd = false ∧ (resourceOwn recognise h).nestedType n = .undefined ∧
      (resourceOwn recognise h).isUnexpected n pd = false := by
  have hkey := (C74_keyword n hk h1 s hs hn).1.mpr hr
  have l0 : ∀ t, Recognise.ofList n t = .undefined := by intro t; simp [Recognise.ofList, hk]
  have hnd : recognise.actionType n ≠ .dependent := by
    rw [Ne, (C74_action_type n hk s hs).1]
    rintro (h | ⟨m, h⟩)
    · exact ha h
    · exact action_slash h (resource_slash hr)
  have hnest : recognise.resourceNested n = .undefined := by
    unfold Recognise.resourceNested Recognise.parametersType Recognise.headersType Recognise.payloadType
      Recognise.attributesType
    have hdep : recognise.dependentAction n = .undefined := by
      unfold Recognise.dependentAction
      split
      · rename_i hc
        have hf := ((C74_action n).mp hc.1).2
        obtain ⟨s', hs', hf⟩ := hf
        rw [seen_iff] at hs hs'
        rw [hs', ← hs] at hf
        have h3 := (C74_action_type n hk s (seen_iff.mpr hs)).2.2
        cases hat : recognise.actionType n with
        | notAction => exact absurd hf (h3.mp hat)
        | dependent => exact absurd hat hnd
        | complete => exact absurd hat hc.2
      · rfl
    simp only [l0, hdep, Recognise.modelOnly, Recognise.first, ne_eq, not_true_eq_false, if_false]
  refine ⟨?_, hnest, ?_⟩
  · show (if recognise.actionType n = .complete then false else recognise.isDescription recognise.resourceNested _ n) = false
    split
    · rfl
    · rw [Recognise.isDescription, hnest, if_neg (by decide), hkey]; rfl
  · show recognise.isUnexpected _ n = false
    rw [Recognise.isUnexpected, hkey]; rfl

/-- C74 is false without the last condition but one: the header `Sample: B [/b]` has the form of a resource, but after a
resource it is read as a part of its description. -/
theorem C74_resource_ends_refuted {σ : Type} (h : Handlers σ) (pd : SectionType) :
    ∃ (n : Node) (s : Bytes), n.kind = .header ∧ asc '\n' ∉ n.text ∧ Seen n.text s ∧ ResourceForm s ∧
      recognise.resourceType n = .resource ∧ (resourceOwn recognise h).isDescription n pd = true := by
  refine ⟨header "Sample: B [/b]", str "Sample: B [/b]", rfl, by decide, seen_iff.mpr (by decide +kernel), ?_,
    by decide +kernel, ?_⟩
  · exact .inr (.inr (.inl ⟨str "Sample: B", str "/b", [], [32], by decide, blanks_nil, ⟨by decide, by decide⟩,
      ⟨by decide, by simp [Blanks]⟩, ⟨str "b", by decide⟩⟩))
  · have key : ∀ n, (resourceOwn recognise h).isDescription n pd = (if recognise.actionType n = .complete then false
        else recognise.isDescription recognise.resourceNested [.resourceGroup, .resource, .dataStructureGroup] n) := fun _ => rfl
    rw [key]
    decide +kernel

/-! ## Cases -/

example : recognise.resourceType (header "Users [/users{?page}]") = .resource := by decide +kernel
example : recognise.resourceType (header "GET /users") = .resource := by decide +kernel
example : recognise.groupType (header "Group Users") = .resourceGroup := by decide +kernel
example : recognise.dataStructuresType (header "Data Structures") = .dataStructureGroup := by decide +kernel
example : recognise.blueprintNested (header "Introduction") = .undefined := by decide +kernel
example : recognise.actionType (header "List users [GET]") = .dependent := by decide +kernel
example : recognise.actionType (header "GET /users") = .complete := by decide +kernel
/-- The conditions of `C74_resource_ends` are met. -/
example : ∃ s, Seen (header "Users [/users]").text s ∧ ResourceForm s ∧ ¬ TypeSectionForm s ∧
    ¬ ∃ name m u, NamedActionLine s name m u := by
  refine ⟨str "Users [/users]", seen_iff.mpr (by decide +kernel), ?_, ?_, ?_⟩
  · have := (C74_resource (header "Users [/users]")).mp (by decide +kernel)
    obtain ⟨_, s, h1, h2⟩ := this
    rw [seen_iff] at h1
    rw [h1] at h2
    exact (show cstr (trim (header "Users [/users]").text) = str "Users [/users]" by decide +kernel) ▸ h2
  · have := typeSection_header (n := header "Users [/users]") rfl (by decide) (by decide)
    rw [show cstr (trim (header "Users [/users]").text) = str "Users [/users]" by decide +kernel] at this
    rw [← this]; decide +kernel
  · rw [← L_namedAction, ← acc_iff]; decide +kernel

end Verif.Props
