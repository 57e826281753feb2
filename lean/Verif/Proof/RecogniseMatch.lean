import Verif.Proof.Recognise
/-! What the tests of the section processors answer. -/
namespace Verif.Recognition
open Verif Verif.Text Verif.Regex Verif.Spec Verif.Spec.Regex Verif.Spec.Recognition Verif.Section

/-! ## What is seen of a text -/

theorem cstr_iff {t s : Bytes} : s = cstr t ↔ 0 ∉ s ∧ (t = s ∨ ∃ r, t = s ++ 0 :: r) := by
  constructor
  · rintro rfl
    refine ⟨fun h => ?_, ?_⟩
    · have := mem_takeWhile_imp (p := fun c : UInt8 => decide (c ≠ 0)) h
      simp at this
    · have h1 := List.takeWhile_append_dropWhile (p := fun c : UInt8 => decide (c ≠ 0)) (l := t)
      cases hd : t.dropWhile (fun c : UInt8 => decide (c ≠ 0)) with
      | nil => rw [hd, List.append_nil] at h1; exact .inl h1.symm
      | cons c r =>
        have hc : c = 0 := by
          have := head_dropWhile (p := fun c : UInt8 => decide (c ≠ 0)) (l := t) (c := c) (by rw [hd]; rfl)
          simpa using this
        rw [hd, hc] at h1
        exact .inr ⟨r, h1.symm⟩
  · rintro ⟨h0, rfl | ⟨r, rfl⟩⟩
    · unfold cstr
      have := List.takeWhile_append_of_pos (p := fun c : UInt8 => decide (c ≠ 0)) (l₁ := t) (l₂ := [])
        (by intro c hc; simp; rintro rfl; exact h0 hc)
      simpa using this.symm
    · unfold cstr
      rw [List.takeWhile_append_of_pos]
      · simp
      · intro c hc; simp; rintro rfl; exact h0 hc

theorem seen_iff {text s : Bytes} : Seen text s ↔ s = cstr (trim text) := by
  constructor
  · rintro ⟨t, h1, h2, h3⟩
    rw [trim_unique h1]; exact cstr_iff.mpr ⟨h2, h3⟩
  · intro h
    exact ⟨trim text, trim_spec text, (cstr_iff.mp h).1, (cstr_iff.mp h).2⟩

theorem exists_seen {text : Bytes} {P : Bytes → Prop} : (∃ s, Seen text s ∧ P s) ↔ P (cstr (trim text)) := by
  simp only [seen_iff, exists_eq_left]

theorem firstLine_iff {text s : Bytes} : FirstLine text s ↔ s = (getFirstLine text).1 := by
  unfold getFirstLine FirstLine
  rcases splitOnFirst_cases (asc '\n') text with ⟨h, hn⟩ | ⟨a, b, h, hl, hn⟩
  · rw [h]
    constructor
    · rintro ⟨_, h | ⟨r, h⟩⟩
      · exact h.symm
      · exact absurd (h ▸ by simp) hn
    · rintro rfl; exact ⟨hn, .inl rfl⟩
  · rw [h]
    constructor
    · rintro ⟨hs, h' | ⟨r, h'⟩⟩
      · rw [← h'] at hs; exact absurd (hl ▸ by simp) hs
      · exact (append_cons_inj (h' ▸ hl) hs hn).1
    · rintro rfl; exact ⟨hn, .inr ⟨b, hl⟩⟩

/-! ## No expression describes the empty text -/

theorem methods_ne {m} (h : m ∈ methods) : m ≠ [] := by rintro rfl; revert h; decide
theorem path_ne {u} (h : Path u) : u ≠ [] := by obtain ⟨r, rfl⟩ := h; simp
theorem word_ne {a b : Char} {w : String} {k} (h : Word a b w k) : k ≠ [] := by rcases h with rfl | rfl <;> simp

theorem actionLine_ne {s m u} (h : ActionLine s m u) : s ≠ [] := by
  obtain ⟨a, b, rfl, _, hm, _⟩ := h; have := methods_ne hm; simp_all
theorem namedActionLine_ne {s n m u} (h : NamedActionLine s n m u) : s ≠ [] := by
  obtain ⟨a, b, rfl, _⟩ := h; simp
theorem uriLine_ne {s u} (h : UriLine s u) : s ≠ [] := by
  obtain ⟨a, rfl, _, hu⟩ := h; have := path_ne hu; simp_all
theorem endpointLine_ne {s m u} (h : EndpointLine s m u) : s ≠ [] := by
  obtain ⟨a, b, rfl, _, hm, _⟩ := h; have := methods_ne hm; simp_all
theorem namedResourceLine_ne {s n u} (h : NamedResourceLine s n u) : s ≠ [] := by
  obtain ⟨a, b, rfl, _⟩ := h; simp
theorem namedEndpointLine_ne {s n m u} (h : NamedEndpointLine s n m u) : s ≠ [] := by
  obtain ⟨a, b, c, rfl, _⟩ := h; simp
theorem groupLine_ne {s n} (h : GroupLine s n) : s ≠ [] := by
  obtain ⟨a, w, b, c, rfl, _, hw, _⟩ := h; have := word_ne hw; simp_all
theorem dataLine_ne {s} (h : DataLine s) : s ≠ [] := by
  obtain ⟨a, v, b, w, c, rfl, _, hw, _⟩ := h; have := word_ne hw; simp_all
theorem relativeLine_ne {s} (h : RelativeLine s) : s ≠ [] := by
  obtain ⟨a, n, m, b, u, rfl, _⟩ := h; simp
theorem keyword_ne {P : Bytes → Prop} {s} (hP : ¬ P []) (h : Keyword P s) : s ≠ [] := by
  obtain ⟨a, w, b, rfl, _, hw, _⟩ := h
  have : w ≠ [] := by rintro rfl; exact hP hw
  simp_all
theorem oneOfLine_ne {s} (h : OneOfLine s) : s ≠ [] := by
  obtain ⟨a, v, b, w, c, rfl, _, hw, _⟩ := h; have := word_ne hw; simp_all
theorem colonLine_ne {P : Bytes → Prop} {s} (hP : ¬ P []) (h : ColonLine P s) : s ≠ [] := by
  obtain ⟨a, w, b, r, rfl, _, hw, _⟩ := h
  have : w ≠ [] := by rintro rfl; exact hP hw
  simp_all
theorem attributesLine_ne {s} (h : AttributesLine s) : s ≠ [] := by
  obtain ⟨a, w, b, r, rfl, _, hw, _⟩ := h
  have : w ≠ [] := by rcases hw with hw | hw <;> exact word_ne hw
  simp_all
theorem relationLine_ne {s r} (h : RelationLine s r) : s ≠ [] := by
  obtain ⟨a, w, b, rfl, _⟩ := h; simp
theorem responseLine_ne {s c m} (h : ResponseLine s c m) : s ≠ [] := by
  obtain ⟨a, w, p, b, rfl, _, hw, _⟩ := h; have := word_ne hw; simp_all
theorem requestLine_ne {s c m} (h : RequestLine s c m) : s ≠ [] := by
  obtain ⟨a, w, p, b, rfl, _, hw, _⟩ := h; have := word_ne hw; simp_all
theorem modelLine_ne {s c m} (h : ModelLine s c m) : s ≠ [] := by
  obtain ⟨a, i, w, p, b, rfl, _, _, hw, _⟩ := h; have := word_ne hw; simp_all

theorem n_action : ¬ Lang xAction [] := by rw [L_action]; rintro ⟨_, _, h⟩; exact actionLine_ne h rfl
theorem n_namedAction : ¬ Lang xNamedAction [] := by
  rw [L_namedAction]; rintro ⟨_, _, _, h⟩; exact namedActionLine_ne h rfl
theorem n_relative : ¬ Lang xRelative [] := by rw [L_relative]; intro h; exact relativeLine_ne h rfl
theorem n_resource : ¬ Lang xResource [] := by
  rw [L_resource]; rintro (⟨_, h⟩ | ⟨_, _, h⟩)
  · exact uriLine_ne h rfl
  · exact endpointLine_ne h rfl
theorem n_namedResource : ¬ Lang xNamedResource [] := by
  rw [L_namedResource]; rintro ⟨_, _, h⟩; exact namedResourceLine_ne h rfl
theorem n_namedEndpoint : ¬ Lang xNamedEndpoint [] := by
  rw [L_namedEndpoint]; rintro ⟨_, _, _, h⟩; exact namedEndpointLine_ne h rfl
theorem n_group : ¬ Lang xGroup [] := by rw [L_group]; rintro ⟨_, h⟩; exact groupLine_ne h rfl
theorem n_data : ¬ Lang xData [] := by rw [L_data]; intro h; exact dataLine_ne h rfl
theorem n_headers : ¬ Lang xHeaders [] := by
  rw [L_headers]; intro h; exact keyword_ne (by rintro (h | h) <;> exact word_ne h rfl) h rfl
theorem n_parameters : ¬ Lang xParameters [] := by
  rw [L_parameters]; intro h; exact keyword_ne (by rintro (h | h) <;> exact word_ne h rfl) h rfl
theorem n_valueMembers : ¬ Lang xValueMembers [] := by
  rw [L_valueMembers]; intro h; exact keyword_ne (by rintro (h | h) <;> exact word_ne h rfl) h rfl
theorem n_body : ¬ Lang xBody [] := by rw [L_body]; intro h; exact keyword_ne (fun h => word_ne h rfl) h rfl
theorem n_schema : ¬ Lang xSchema [] := by rw [L_schema]; intro h; exact keyword_ne (fun h => word_ne h rfl) h rfl
theorem n_values : ¬ Lang xValues [] := by rw [L_values]; intro h; exact keyword_ne (fun h => word_ne h rfl) h rfl
theorem n_propertyMembers : ¬ Lang xPropertyMembers [] := by
  rw [L_propertyMembers]; intro h; exact keyword_ne (fun h => word_ne h rfl) h rfl
theorem n_oneOf : ¬ Lang xOneOf [] := by rw [L_oneOf]; intro h; exact oneOfLine_ne h rfl
theorem n_default : ¬ Lang xDefault [] := by rw [L_default]; intro h; exact colonLine_ne (fun h => word_ne h rfl) h rfl
theorem n_sample : ¬ Lang xSample [] := by rw [L_sample]; intro h; exact colonLine_ne (fun h => word_ne h rfl) h rfl
theorem n_attributes : ¬ Lang xAttributes [] := by rw [L_attributes]; intro h; exact attributesLine_ne h rfl
theorem n_relation : ¬ Lang xRelation [] := by rw [L_relation]; intro h; exact relationLine_ne h rfl
theorem n_relationIdentifier : ¬ Lang xRelationIdentifier [] := by
  rw [L_relationIdentifier]; rintro ⟨_, _, _, h, _⟩; exact relationLine_ne h rfl
theorem n_mixin : ¬ Lang xMixin [] := by
  rw [L_mixin]; rintro ⟨a, w, b, h, _, hw, _⟩; have := word_ne hw; simp_all
theorem n_response : ¬ Lang xResponse [] := by rw [L_response]; rintro ⟨_, _, h⟩; exact responseLine_ne h rfl
theorem n_request : ¬ Lang xRequest [] := by rw [L_request]; rintro ⟨_, _, h⟩; exact requestLine_ne h rfl
theorem n_model : ¬ Lang xModel [] := by rw [L_model]; rintro ⟨_, _, h⟩; exact modelLine_ne h rfl

/-! ## Matches -/

theorem m_action {t} : regexMatch t actionHeaderRegex = true ↔ ∃ m u, ActionLine (cstr t) m u := by
  rw [regexMatch_full c_action (by decide) n_action, L_action]
theorem m_namedAction {t} : regexMatch t namedActionHeaderRegex = true ↔ ∃ n m u, NamedActionLine (cstr t) n m u := by
  rw [regexMatch_full c_namedAction (by decide) n_namedAction, L_namedAction]
theorem m_relative {t} : regexMatch t namedActionNonAbsoluteURIRegex = true ↔ RelativeLine (cstr t) := by
  rw [regexMatch_full c_relative (by decide) n_relative, L_relative]
theorem m_resource {t} : regexMatch t resourceHeaderRegex = true ↔
    (∃ u, UriLine (cstr t) u) ∨ ∃ m u, EndpointLine (cstr t) m u := by
  rw [regexMatch_full c_resource (by decide) n_resource, L_resource]
theorem m_namedResource {t} : regexMatch t namedResourceHeaderRegex = true ↔ ∃ n u, NamedResourceLine (cstr t) n u := by
  rw [regexMatch_full c_namedResource (by decide) n_namedResource, L_namedResource]
theorem m_namedEndpoint {t} : regexMatch t namedEndpointHeaderRegex = true ↔
    ∃ n m u, NamedEndpointLine (cstr t) n m u := by
  rw [regexMatch_full c_namedEndpoint (by decide) n_namedEndpoint, L_namedEndpoint]
theorem m_group {t} : regexMatch t groupHeaderRegex = true ↔ ∃ n, GroupLine (cstr t) n := by
  rw [regexMatch_full c_group (by decide) n_group, L_group]
theorem m_data {t} : regexMatch t dataStructureGroupRegex = true ↔ DataLine (cstr t) := by
  rw [regexMatch_full c_data (by decide) n_data, L_data]
theorem m_headers {t} : regexMatch t headersRegex = true ↔ HeadersLine (cstr t) := by
  rw [regexMatch_full c_headers (by decide) n_headers, L_headers]
theorem m_parameters {t} : regexMatch t parametersRegex = true ↔ ParametersLine (cstr t) := by
  rw [regexMatch_full c_parameters (by decide) n_parameters, L_parameters]
theorem m_attributes {t} : regexMatch t attributesRegex = true ↔ AttributesLine (cstr t) := by
  rw [regexMatch_full c_attributes (by decide) n_attributes, L_attributes]
theorem m_body {t} : regexMatch t bodyRegex = true ↔ BodyLine (cstr t) := by
  rw [regexMatch_full c_body (by decide) n_body, L_body]
theorem m_schema {t} : regexMatch t schemaRegex = true ↔ SchemaLine (cstr t) := by
  rw [regexMatch_full c_schema (by decide) n_schema, L_schema]
theorem m_values {t} : regexMatch t valuesRegex = true ↔ ValuesLine (cstr t) := by
  rw [regexMatch_full c_values (by decide) n_values, L_values]
theorem m_oneOf {t} : regexMatch t oneOfRegex = true ↔ OneOfLine (cstr t) := by
  rw [regexMatch_full c_oneOf (by decide) n_oneOf, L_oneOf]
theorem m_default {t} : regexMatch t defaultRegex = true ↔ DefaultLine (cstr t) := by
  rw [regexMatch_full c_default (by decide) n_default, L_default]
theorem m_sample {t} : regexMatch t sampleRegex = true ↔ SampleLine (cstr t) := by
  rw [regexMatch_full c_sample (by decide) n_sample, L_sample]
theorem m_valueMembers {t} : regexMatch t valueMembersRegex = true ↔ ItemsLine (cstr t) := by
  rw [regexMatch_full c_valueMembers (by decide) n_valueMembers, L_valueMembers]
theorem m_propertyMembers {t} : regexMatch t propertyMembersRegex = true ↔ PropertiesLine (cstr t) := by
  rw [regexMatch_full c_propertyMembers (by decide) n_propertyMembers, L_propertyMembers]
theorem m_model {t} : regexMatch t modelRegex = true ↔ ∃ n m, ModelLine (cstr t) n m := by
  rw [regexMatch_full c_model (by decide) n_model, L_model]
theorem m_relation {t} : regexMatch t relationRegex = true ↔ ∃ r, RelationLine (cstr t) r := by
  rw [regexMatch_prefix c_relation (by decide) n_relation]; simp only [L_relation]
  constructor
  · rintro ⟨m, r, h, a, w, b, rfl, ha, hw, hb⟩; exact ⟨r, a, w, b, by rw [h]; simp, ha, hw, hb⟩
  · rintro ⟨r, a, w, b, h, ha, hw, hb⟩; exact ⟨a ++ w ++ b ++ [asc ':'], r, by rw [h]; simp, a, w, b, rfl, ha, hw, hb⟩
theorem m_mixin {t} : regexMatch t mixinRegex = true ↔ MixinLine (cstr t) := by
  rw [regexMatch_prefix c_mixin (by decide) n_mixin]; simp only [L_mixin]
  constructor
  · rintro ⟨m, r, h, a, w, b, rfl, ha, hw, hb⟩; exact ⟨a, w, b, r, h, ha, hw, hb⟩
  · rintro ⟨a, w, b, r, h, ha, hw, hb⟩; exact ⟨_, r, h, a, w, b, rfl, ha, hw, hb⟩
theorem m_request {t} : regexMatch t requestRegex = true ↔ ∃ a w r, cstr t = a ++ w ++ r ∧ Blanks a ∧ Word 'R' 'r' "equest" w := by
  rw [regexMatch_prefix c_request (by decide) n_request]; simp only [L_request]
  constructor
  · rintro ⟨x, r, h, n, m, a, w, p, b, rfl, ha, hw, _⟩; exact ⟨a, w, n ++ p ++ b ++ r, by rw [h]; simp only [List.append_assoc], ha, hw⟩
  · rintro ⟨a, w, r, h, ha, hw⟩
    exact ⟨_, r, h, [], [], a, w, [], [], by simp, ha, hw, .inl rfl, .inl ⟨rfl, rfl⟩, by simp [Blanks]⟩
theorem m_response {t} : regexMatch t responseRegex = true ↔ ∃ a w r, cstr t = a ++ w ++ r ∧ Blanks a ∧ Word 'R' 'r' "esponse" w := by
  rw [regexMatch_prefix c_response (by decide) n_response]; simp only [L_response]
  constructor
  · rintro ⟨x, r, h, n, m, a, w, p, b, rfl, ha, hw, _⟩; exact ⟨a, w, n ++ p ++ b ++ r, by rw [h]; simp only [List.append_assoc], ha, hw⟩
  · rintro ⟨a, w, r, h, ha, hw⟩
    exact ⟨_, r, h, [], [], a, w, [], [], by simp, ha, hw, by simp, .inl ⟨rfl, rfl⟩, by simp [Blanks]⟩

end Verif.Recognition
