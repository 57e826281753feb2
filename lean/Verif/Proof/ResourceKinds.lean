import Verif.Spec.Resource
import Verif.Proof.ActionKinds
import Verif.Proof.RunLoop

/-! # Which blocks belong to a resource, and what they are -/

namespace Verif.Resource
open Verif Verif.Text Verif.Regex Verif.Section Verif.Recognition Verif.Spec Verif.Spec.Recognition Verif.Spec.Payload Verif.Spec.Resource Verif.Props
open Verif.Action (Is is_one payload_values)
open Verif.Spec.Action (RequestItem ResponseItem HasParts)

theorem nested_eq (n : Node) : recognise.resourceNested n =
    Recognise.first [recognise.parametersType n, recognise.headersType n, Recognise.modelOnly (recognise.payloadType n),
      recognise.attributesType n, recognise.dependentAction n] := rfl

theorem seen_one {text s t : Bytes} (h : Seen text s) (h' : Seen text t) : s = t := by
  rw [seen_iff] at h h'; rw [h, h']

theorem seen_some (text : Bytes) : ∃ s, Seen text s := ⟨_, seen_iff.mpr rfl⟩

/-! ## Headers -/

theorem dependent_iff (n : Node) : recognise.dependentAction n = .action ↔ ActionHeader n := by
  unfold ActionHeader
  by_cases hk : n.kind = .header
  · obtain ⟨s, hs⟩ := seen_some n.text
    obtain ⟨t1, t2, t3⟩ := C74_action_type n hk s hs
    have c := C74_action n
    have e : (recognise.dependentAction n = .action) ↔ recognise.actionSectionType n = .action ∧ recognise.actionType n ≠ .complete := by
      unfold Recognise.dependentAction
      split
      · rename_i h; exact ⟨fun _ => h, fun _ => rfl⟩
      · rename_i h; exact ⟨nofun, fun h' => absurd h' h⟩
    rw [e, c]
    constructor
    · rintro ⟨⟨_, s', hs', hf⟩, hc⟩
      rw [seen_one hs' hs] at hf
      cases ht : recognise.actionType n with
      | notAction => exact absurd hf (t3.mp ht)
      | dependent => exact ⟨hk, s, hs, t1.mp ht⟩
      | complete => exact absurd ht hc
    · rintro ⟨_, s', hs', hf⟩
      rw [seen_one hs' hs] at hf
      refine ⟨⟨hk, s, hs, ?_⟩, by rw [t1.mpr hf]; nofun⟩
      rcases hf with ⟨a, b, c, h⟩ | ⟨m, h⟩
      · exact .inr ⟨a, b, c, h⟩
      · exact .inl ⟨m, [], h⟩
  · have e : recognise.dependentAction n = .undefined := by
      unfold Recognise.dependentAction Recognise.actionSectionType Recognise.ofHeader
      simp [hk]
    rw [e]
    simp [hk]

theorem dependent_values (n : Node) : recognise.dependentAction n = .action ∨ recognise.dependentAction n = .undefined := by
  unfold Recognise.dependentAction
  split <;> simp

theorem whole_iff (n : Node) : recognise.actionType n = .complete ↔ WholeHeader n := by
  unfold WholeHeader
  by_cases hk : n.kind = .header
  · obtain ⟨s, hs⟩ := seen_some n.text
    obtain ⟨_, t2, _⟩ := C74_action_type n hk s hs
    rw [t2]
    constructor
    · rintro ⟨h1, h2⟩; exact ⟨hk, s, hs, h1, h2⟩
    · rintro ⟨_, s', hs', h1, h2⟩
      rw [seen_one hs' hs] at h1 h2; exact ⟨h1, h2⟩
  · have e : recognise.actionType n = .notAction := by unfold Recognise.actionType; simp [hk]
    rw [e]; simp [hk]

/-! ## Items -/

theorem header_list {n : Node} (h : n.kind = .header) : recognise.parametersType n = .undefined ∧ recognise.headersType n = .undefined ∧
    recognise.payloadType n = .undefined ∧ recognise.attributesType n = .undefined := by
  have l0 : ∀ t, Recognise.ofList n t = .undefined := by intro t; simp [Recognise.ofList, h]
  exact ⟨l0 _, l0 _, l0 _, l0 _⟩

theorem item_kind {n : Node} {P : Bytes → Prop} (h : ∃ s, ItemLine n s ∧ P s) : n.kind = .listItem := by
  rw [itemLine_iff] at h; exact h.1.1

theorem modelOnly_values (t : SectionType) : (t = .model ∧ Recognise.modelOnly t = .model) ∨ (t = .modelBody ∧ Recognise.modelOnly t = .modelBody) ∨
    (t ≠ .model ∧ t ≠ .modelBody ∧ Recognise.modelOnly t = .undefined) := by
  cases t <;> simp [Recognise.modelOnly]

theorem modelType_iff (n : Node) : (recognise.payloadType n = .model ↔
      (∃ s, ItemLine n s ∧ (∃ name m, ModelLine s name m) ∧ ¬ Item.Form .request s ∧ ¬ Item.Form .response s) ∧ HasParts n) ∧
    (recognise.payloadType n = .modelBody ↔
      (∃ s, ItemLine n s ∧ (∃ name m, ModelLine s name m) ∧ ¬ Item.Form .request s ∧ ¬ Item.Form .response s) ∧ ¬ HasParts n) := by
  haveI := Classical.propDecidable (HasParts n)
  obtain ⟨p1, p2, p3, p4⟩ := C77_payload n (HasParts n) Iff.rfl
  have pv : recognise.payloadType n = .undefined ∨ recognise.payloadType n = (if HasParts n then .request else .requestBody) ∨
      recognise.payloadType n = (if HasParts n then .response else .responseBody) ∨
      recognise.payloadType n = (if HasParts n then .model else .modelBody) := by
    by_cases h1 : ∃ s, ItemLine n s ∧ Item.Form .request s
    · exact .inr (.inl (p1.mpr h1))
    by_cases h2 : ∃ s, ItemLine n s ∧ Item.Form .response s
    · exact .inr (.inr (.inl (p2.mpr h2)))
    by_cases h3 : ∃ s, ItemLine n s ∧ (∃ name m, ModelLine s name m) ∧ ¬ Item.Form .request s ∧ ¬ Item.Form .response s
    · exact .inr (.inr (.inr (p3.mpr h3)))
    · refine .inl (p4.mpr fun s hs => ⟨fun h => h1 ⟨s, hs, h⟩, fun h => h2 ⟨s, hs, h⟩, fun h => h3 ⟨s, hs, h, ?_, ?_⟩⟩)
      · exact fun h => h1 ⟨s, hs, h⟩
      · exact fun h => h2 ⟨s, hs, h⟩
  rw [← p3]
  clear p1 p2 p3 p4
  generalize recognise.payloadType n = t at *
  by_cases hp : HasParts n
  · simp only [hp, if_true] at pv ⊢
    rcases pv with rfl | rfl | rfl | rfl <;> simp
  · simp only [hp, if_false] at pv ⊢
    rcases pv with rfl | rfl | rfl | rfl <;> simp

theorem model_line {n : Node} : (∃ s, ItemLine n s ∧ (∃ name m, ModelLine s name m) ∧ ¬ Item.Form .request s ∧ ¬ Item.Form .response s) ↔
    (∃ s, ItemLine n s ∧ ∃ name m, ModelLine s name m) ∧ ¬ RequestItem n ∧ ¬ ResponseItem n := by
  unfold RequestItem ResponseItem
  rw [itemLine_iff, itemLine_iff, itemLine_iff, itemLine_iff]
  tauto

/-- What a block of a resource is. -/
theorem nested_cases (n : Node) :
    (ParametersItem n ∧ recognise.resourceNested n = .parameters) ∨ (HeadersItem n ∧ recognise.resourceNested n = .headers) ∨
    (ModelItem n ∧ HasParts n ∧ recognise.resourceNested n = .model) ∨ (ModelItem n ∧ ¬ HasParts n ∧ recognise.resourceNested n = .modelBody) ∨
    (AttributesItem n ∧ ¬ ModelItem n ∧ recognise.resourceNested n = .attributes) ∨ (ActionHeader n ∧ recognise.resourceNested n = .action) ∨
    (¬ ParametersItem n ∧ ¬ HeadersItem n ∧ ¬ ModelItem n ∧ ¬ AttributesItem n ∧ ¬ ActionHeader n ∧ recognise.resourceNested n = .undefined) := by
  rw [nested_eq]
  obtain ⟨s1, s2, s3, s4, _⟩ := C77_sections n
  have v1 : recognise.headersType n = .headers ∨ recognise.headersType n = .undefined := ofList_values
  have v2 : recognise.parametersType n = .parameters ∨ recognise.parametersType n = .undefined := ofList_values
  have v3 : recognise.attributesType n = .attributes ∨ recognise.attributesType n = .undefined := ofList_values
  have v5 := dependent_values n
  have d1 := dependent_iff n
  obtain ⟨m1, m2⟩ := modelType_iff n
  rw [model_line] at m1 m2
  change _ ↔ HeadersItem n at s1
  change _ ↔ ParametersItem n at s2
  change _ ↔ AttributesItem n at s3
  have mi : ModelItem n ↔ ((∃ s, ItemLine n s ∧ ∃ name m, ModelLine s name m) ∧ ¬ RequestItem n ∧ ¬ ResponseItem n) ∧
    ¬ ParametersItem n ∧ ¬ HeadersItem n :=
    ⟨fun ⟨a, b, c, d, e⟩ => ⟨⟨a, b, c⟩, d, e⟩, fun ⟨⟨a, b, c⟩, d, e⟩ => ⟨a, b, c, d, e⟩⟩
  generalize ((∃ s, ItemLine n s ∧ ∃ name m, ModelLine s name m) ∧ ¬ RequestItem n ∧ ¬ ResponseItem n) = M at *
  have mv := modelOnly_values (recognise.payloadType n)
  generalize Recognise.modelOnly (recognise.payloadType n) = p at *
  generalize recognise.payloadType n = q at *
  generalize recognise.headersType n = a at *
  generalize recognise.parametersType n = b at *
  generalize recognise.attributesType n = c at *
  generalize recognise.dependentAction n = e at *
  rw [mi, ← s1, ← s2, ← s3, ← d1]
  clear s1 s2 s3 d1 s4 mi
  rcases v2 with rfl | rfl
  · left; exact ⟨rfl, rfl⟩
  rcases v1 with rfl | rfl
  · right; left; exact ⟨rfl, rfl⟩
  rcases mv with ⟨rfl, rfl⟩ | ⟨rfl, rfl⟩ | ⟨h1, h2, rfl⟩
  · obtain ⟨hM, hP⟩ := m1.mp rfl
    right; right; left; exact ⟨⟨hM, nofun, nofun⟩, hP, rfl⟩
  · obtain ⟨hM, hP⟩ := m2.mp rfl
    right; right; right; left; exact ⟨⟨hM, nofun, nofun⟩, hP, rfl⟩
  have hM : ¬ M := by
    intro h
    by_cases hP : HasParts n
    · exact h1 (m1.mpr ⟨h, hP⟩)
    · exact h2 (m2.mpr ⟨h, hP⟩)
  rcases v3 with rfl | rfl
  · right; right; right; right; left; exact ⟨rfl, fun h => hM h.1, rfl⟩
  rcases v5 with rfl | rfl
  · right; right; right; right; right; left; exact ⟨rfl, rfl⟩
  · right; right; right; right; right; right; exact ⟨nofun, nofun, fun h => hM h.1, nofun, nofun, rfl⟩

theorem pure_cases {P H M A X Q : Prop} {x : SectionType}
    (key : (P ∧ x = .parameters) ∨ (H ∧ x = .headers) ∨ (M ∧ Q ∧ x = .model) ∨ (M ∧ ¬ Q ∧ x = .modelBody) ∨ (A ∧ ¬ M ∧ x = .attributes) ∨
      (X ∧ x = .action) ∨ (¬ P ∧ ¬ H ∧ ¬ M ∧ ¬ A ∧ ¬ X ∧ x = .undefined))
    (h1 : P → ¬ H) (h2 : P → ¬ A) (h3 : H → ¬ A) (h4 : P → ¬ X) (h5 : H → ¬ X) (h6 : A → ¬ X) (h7 : M → ¬ P ∧ ¬ H) (h8 : M → ¬ X) :
    (P → x = .parameters) ∧ (H → x = .headers) ∧ (M → Q → x = .model) ∧ (M → ¬ Q → x = .modelBody) ∧ (A → ¬ M → x = .attributes) ∧
      (X → x = .action) := by
  rcases key with ⟨h, rfl⟩ | ⟨h, rfl⟩ | ⟨h, h', rfl⟩ | ⟨h, h', rfl⟩ | ⟨h, h', rfl⟩ | ⟨h, rfl⟩ | ⟨k1, k2, k3, k4, k5, rfl⟩
  · exact ⟨fun _ => rfl, fun g => absurd g (h1 h), fun g => absurd h (h7 g).1, fun g => absurd h (h7 g).1, fun g => absurd g (h2 h),
      fun g => absurd g (h4 h)⟩
  · exact ⟨fun g => absurd h (h1 g), fun _ => rfl, fun g => absurd h (h7 g).2, fun g => absurd h (h7 g).2, fun g => absurd g (h3 h),
      fun g => absurd g (h5 h)⟩
  · exact ⟨fun g => absurd g (h7 h).1, fun g => absurd g (h7 h).2, fun _ _ => rfl, fun _ g => absurd h' g, fun _ g => absurd h g,
      fun g => absurd g (h8 h)⟩
  · exact ⟨fun g => absurd g (h7 h).1, fun g => absurd g (h7 h).2, fun _ g => absurd g h', fun _ _ => rfl, fun _ g => absurd h g,
      fun g => absurd g (h8 h)⟩
  · exact ⟨fun g => absurd h (h2 g), fun g => absurd h (h3 g), fun g => absurd g h', fun g => absurd g h', fun _ _ => rfl,
      fun g => absurd g (h6 h)⟩
  · exact ⟨fun g => absurd h (h4 g), fun g => absurd h (h5 g), fun g => absurd h (h8 g), fun g => absurd h (h8 g), fun g => absurd h (h6 g),
      fun _ => rfl⟩
  · exact ⟨fun g => absurd g k1, fun g => absurd g k2, fun g => absurd g k3, fun g => absurd g k3, fun g => absurd g k4, fun g => absurd g k5⟩

theorem section_iff {n : Node} {t : SectionType} (ht : t ≠ .undefined) : recognise.resourceNested n = t ↔ SectionOf n t := by
  have one : ∀ {i j : Item}, Is i n → Is j n → i = j := is_one
  have np : ParametersItem n → Is .parameters n := id
  have nh : HeadersItem n → Is .headers n := id
  have na : AttributesItem n → Is .attributes n := id
  have nk : ∀ i, Is i n → ¬ ActionHeader n := by
    intro i h h'; have := item_kind h; rw [h'.1] at this; cases this
  have nm : ModelItem n → ¬ ActionHeader n := by
    intro h h'; have := item_kind h.1; rw [h'.1] at this; cases this
  constructor
  · rintro rfl
    rcases nested_cases n with ⟨h, e⟩ | ⟨h, e⟩ | ⟨h, h', e⟩ | ⟨h, h', e⟩ | ⟨h, h', e⟩ | ⟨h, e⟩ | ⟨_, _, _, _, _, e⟩
    · rw [e]; exact .parameters h
    · rw [e]; exact .headers h
    · rw [e]; exact .model h h'
    · rw [e]; exact .shortModel h h'
    · rw [e]; exact .attributes h h'
    · rw [e]; exact .action h
    · exact absurd e ht
  · intro hs
    have hph : ParametersItem n → ¬ HeadersItem n := fun h h' => absurd (one (np h) (nh h')) (by decide)
    have hpa : ParametersItem n → ¬ AttributesItem n := fun h h' => absurd (one (np h) (na h')) (by decide)
    have hha : HeadersItem n → ¬ AttributesItem n := fun h h' => absurd (one (nh h) (na h')) (by decide)
    have kp : ParametersItem n → ¬ ActionHeader n := fun h => nk _ (np h)
    have kh : HeadersItem n → ¬ ActionHeader n := fun h => nk _ (nh h)
    have ka : AttributesItem n → ¬ ActionHeader n := fun h => nk _ (na h)
    have mp : ModelItem n → ¬ ParametersItem n ∧ ¬ HeadersItem n := fun h => h.2.2.2
    obtain ⟨k1, k2, k3, k4, k5, k6⟩ := pure_cases (nested_cases n) hph hpa hha kp kh ka mp nm
    cases hs with
    | parameters g => exact k1 g
    | headers g => exact k2 g
    | model g g' => exact k3 g g'
    | shortModel g g' => exact k4 g g'
    | attributes g g' => exact k5 g g'
    | action g => exact k6 g

theorem section_type {n : Node} {t : SectionType} (h : SectionOf n t) : t ≠ .undefined := by cases h <;> decide

theorem part_iff (n : Node) : ResourcePart n ↔ recognise.resourceNested n ≠ .undefined := by
  constructor
  · rintro ⟨t, h⟩
    rw [(section_iff (section_type h)).mpr h]; exact section_type h
  · intro h; exact ⟨_, (section_iff h).mp rfl⟩

theorem header_part {n : Node} (h : n.kind = .header) : ResourcePart n ↔ ActionHeader n := by
  constructor
  · rintro ⟨t, hs⟩
    have no : ∀ {P : Bytes → Prop}, ¬ ∃ s, ItemLine n s ∧ P s := by intro P hs; have := item_kind hs; rw [h] at this; cases this
    cases hs with
    | parameters g => exact absurd g no
    | headers g => exact absurd g no
    | model g g' => exact absurd g.1 no
    | shortModel g g' => exact absurd g.1 no
    | attributes g g' => exact absurd g no
    | action g => exact g
  · intro h; exact ⟨_, .action h⟩

/-! ## Where a resource ends -/

theorem not_upper {n : Node} (h : n.kind ≠ .header) : upper.contains (recognise.keyword n) = false := by
  have := Action.not_upper h
  cases hc : upper.contains (recognise.keyword n) with
  | false => rfl
  | true =>
    have hm : recognise.keyword n ∈ upper := by simpa using hc
    have : recognise.keyword n ∉ Action.actionUpper := by simpa using this
    exfalso; apply this
    simp only [upper, List.mem_cons, List.not_mem_nil, or_false] at hm
    rcases hm with hm | hm | hm <;> rw [hm] <;> decide

theorem upper_iff (n : Node) : upper.contains (recognise.keyword n) = true ↔
    n.kind = .header ∧ (¬ ∃ l s, FirstLine n.text l ∧ Seen l s ∧ TypeSectionForm s) ∧
    ((∃ s, Seen n.text s ∧ ResourceForm s) ∨ (∃ s, Seen n.text s ∧ ¬ ActionForm s) ∧
      ((∃ s name, Seen n.text s ∧ GroupLine s name) ∨ ∃ l s, FirstLine n.text l ∧ Seen l s ∧ DataLine s)) := by
  by_cases hh : n.kind = .header
  · rw [Action.first_header hh]
    have t1 := typeSection_iff n
    have r1 := C74_resource n
    have r2 := C74_action n
    have r3 := C74_group n
    have r4 := C74_data n
    have tv := Action.typeSection_values' n
    have no : ¬ ∃ s, ItemLine n s ∧ TypeSectionForm s := by
      rw [itemLine_iff, hh]; simp
    have v1 := ofHeader_values n (recognise.resource n.text) .resource
    have v2 := ofHeader_values n (recognise.action n.text || recognise.namedAction n.text) .action
    have v3 := ofHeader_values n (recognise.group n.text) .resourceGroup
    have v4 := ofHeader_values n (recognise.dataStructures n.text) .dataStructureGroup
    change recognise.resourceType n = _ ∨ recognise.resourceType n = _ at v1
    change recognise.actionSectionType n = _ ∨ recognise.actionSectionType n = _ at v2
    change recognise.groupType n = _ ∨ recognise.groupType n = _ at v3
    change recognise.dataStructuresType n = _ ∨ recognise.dataStructuresType n = _ at v4
    have na : (∃ s, Seen n.text s ∧ ¬ ActionForm s) ↔ ¬ ∃ s, Seen n.text s ∧ ActionForm s := by
      constructor
      · rintro ⟨s, hs, h⟩ ⟨s', hs', h'⟩; rw [seen_one hs' hs] at h'; exact h h'
      · intro h; obtain ⟨s, hs⟩ := seen_some n.text; exact ⟨s, hs, fun h' => h ⟨s, hs, h'⟩⟩
    simp only [hh, true_and] at t1 r1 r2 r3 r4 ⊢
    rw [or_iff_left no] at t1
    rw [na, ← r1, ← r2, ← r3, ← r4, ← t1, not_not]
    generalize recognise.typeSectionType n = a at *
    generalize recognise.resourceType n = b at *
    generalize recognise.actionSectionType n = c at *
    generalize recognise.groupType n = d at *
    generalize recognise.dataStructuresType n = e at *
    clear t1 r1 r2 r3 r4 no na
    simp only [List.mem_cons, List.not_mem_nil, or_false] at tv
    rcases tv with rfl | rfl | rfl | rfl <;> rcases v1 with rfl | rfl <;> rcases v2 with rfl | rfl <;> rcases v3 with rfl | rfl <;>
      rcases v4 with rfl | rfl <;> decide
  · rw [not_upper hh]
    simp [hh]

/-- The block does not end the resource. -/
def go (n : Node) : Bool := if recognise.resourceNested n ≠ .undefined then true else recognise.isUnexpected upper n

theorem unexpected_iff {n : Node} : recognise.isUnexpected upper n = true ↔ ¬ upper.contains (recognise.keyword n) = true := by
  unfold Recognise.isUnexpected
  cases h : upper.contains (recognise.keyword n) with
  | false => simp
  | true =>
    simp only [Bool.not_true, Bool.false_eq_true, if_false, decide_eq_true_eq, not_true_eq_false, iff_false]
    intro h'
    rw [h'] at h
    revert h; decide

theorem closes_iff (n : Node) : Closes n ↔ recognise.resourceNested n = .undefined ∧ upper.contains (recognise.keyword n) = true := by
  rw [upper_iff]
  unfold Closes
  have hp := part_iff n
  constructor
  · rintro ⟨h1, h2, h3⟩
    refine ⟨?_, h1, h3⟩
    by_contra h
    exact h2 ((header_part h1).mp (hp.mpr h))
  · rintro ⟨h1, h2, h3⟩
    exact ⟨h2, fun h => (hp.mp ((header_part h2).mpr h)) h1, h3⟩

theorem go_iff (n : Node) : go n = true ↔ ¬ Closes n := by
  rw [closes_iff]
  unfold go
  by_cases hu : recognise.resourceNested n = .undefined
  · rw [if_neg (by simpa using hu), unexpected_iff]; simp [hu]
  · rw [if_pos hu]; simp [hu]

theorem description_iff (n : Node) : isDescription n = true ↔ ¬ AfterDescription n := by
  unfold isDescription AfterDescription
  rw [← whole_iff, part_iff, closes_iff]
  by_cases hw : recognise.actionType n = .complete
  · simp [hw]
  · rw [if_neg hw]
    unfold Recognise.isDescription
    by_cases hu : recognise.resourceNested n = .undefined
    · rw [if_neg (by simpa using hu)]
      have hk : recognise.keyword n = .undefined → upper.contains (recognise.keyword n) = false := by intro h; rw [h]; decide
      cases hc : upper.contains (recognise.keyword n) with
      | false => simp [hu, hw]
      | true =>
        have : recognise.keyword n ≠ .undefined := fun h => by rw [hk h] at hc; cases hc
        simp [hu, this]
    · rw [if_pos hu]; simp [hu]

end Verif.Resource
