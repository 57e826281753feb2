import Verif.Props.C75_C76
/-!
# C77: which list items are which
-/
namespace Verif.Props
open Verif Verif.Text Verif.Signature Verif.Regex Verif.Spec Verif.Spec.Regex Verif.Spec.Recognition Verif.Section
open Verif.Recognition

/-- A list item whose first block has this text. -/
def ItemText (n : Node) (text : Bytes) : Prop := n.kind = .listItem ∧ ∃ c cs, n.children = c :: cs ∧ c.text = text

/-- What is seen of the first line of a list item. -/
def ItemLine (n : Node) (s : Bytes) : Prop := ∃ text l, ItemText n text ∧ FirstLine text l ∧ Seen l s

/-- What is seen of the text of the first block of a list item. -/
def ItemBlock (n : Node) (s : Bytes) : Prop := ∃ text, ItemText n text ∧ Seen text s

theorem itemText_iff {n : Node} {text} : ItemText n text ↔ (n.kind = .listItem ∧ n.children ≠ []) ∧ text = frontText n := by
  unfold ItemText frontText
  cases hc : n.children with
  | nil => simp
  | cons c cs => simp only [List.cons.injEq, ne_eq, reduceCtorEq, not_false_eq_true, and_true, List.head?_cons,
      Option.map_some, Option.getD_some]
                 constructor
                 · rintro ⟨h, c', cs', ⟨rfl, rfl⟩, rfl⟩; exact ⟨h, rfl⟩
                 · rintro ⟨h, rfl⟩; exact ⟨h, c, cs, ⟨rfl, rfl⟩, rfl⟩

theorem itemLine_iff {n : Node} {P : Bytes → Prop} :
    (∃ s, ItemLine n s ∧ P s) ↔ (n.kind = .listItem ∧ n.children ≠ []) ∧ P (cstr (frontLine n)) := by
  unfold ItemLine
  simp only [itemText_iff, firstLine_iff, seen_iff, frontLine]
  constructor
  · rintro ⟨s, ⟨_, _, ⟨h, rfl⟩, rfl, rfl⟩, h2⟩; exact ⟨h, h2⟩
  · rintro ⟨h, h2⟩; exact ⟨_, ⟨_, _, ⟨h, rfl⟩, rfl, rfl⟩, h2⟩

theorem itemBlock_iff {n : Node} {P : Bytes → Prop} :
    (∃ s, ItemBlock n s ∧ P s) ↔ (n.kind = .listItem ∧ n.children ≠ []) ∧ P (cstr (trim (frontText n))) := by
  unfold ItemBlock
  simp only [itemText_iff, seen_iff]
  constructor
  · rintro ⟨s, ⟨_, ⟨h, rfl⟩, rfl⟩, h2⟩; exact ⟨h, h2⟩
  · rintro ⟨h, h2⟩; exact ⟨_, ⟨_, ⟨h, rfl⟩, rfl⟩, h2⟩

theorem ofList_iff {n : Node} {b : Bool} {t : SectionType} (ht : t ≠ .undefined) :
    Recognise.ofList n (Recognise.when b t) = t ↔ (n.kind = .listItem ∧ n.children ≠ []) ∧ b = true := by
  unfold Recognise.ofList Recognise.when
  by_cases h : n.kind = .listItem ∧ n.children ≠ []
  · rw [if_pos h]; cases b <;> simp [h, ht.symm]
  · rw [if_neg h]; simp only [h, false_and, iff_false]; exact ht.symm

/-- C77: a list item is one of these sections exactly if its first line has the form of the section. -/
theorem C77_sections (n : Node) :
    (recognise.headersType n = .headers ↔ ∃ s, ItemLine n s ∧ HeadersLine s) ∧
    (recognise.parametersType n = .parameters ↔ ∃ s, ItemLine n s ∧ ParametersLine s) ∧
    (recognise.attributesType n = .attributes ↔ ∃ s, ItemLine n s ∧ AttributesLine s) ∧
    (recognise.relationType n = .relation ↔ ∃ s, ItemLine n s ∧ ∃ r, RelationLine s r) ∧
    (recognise.oneOfType n = .msonOneOf ↔ ∃ s, ItemLine n s ∧ OneOfLine s) ∧
    (recognise.valuesType n = .values ↔ ∃ s, ItemBlock n s ∧ ValuesLine s) ∧
    (recognise.mixinType n = .msonMixin ↔ ∃ s, ItemBlock n s ∧ MixinLine s) := by
  simp only [itemLine_iff, itemBlock_iff, Recognise.headersType, Recognise.parametersType, Recognise.attributesType,
    Recognise.relationType, Recognise.oneOfType, Recognise.valuesType, Recognise.mixinType]
  refine ⟨?_, ?_, ?_, ?_, ?_, ?_, ?_⟩ <;> rw [ofList_iff (by decide)] <;> refine and_congr_right fun _ => ?_
  · show isHeaders n = true ↔ _
    rw [isHeaders, m_headers]
  · show isParameters n = true ↔ _
    rw [isParameters, m_parameters]
  · show isAttributes n = true ↔ _
    rw [isAttributes, m_attributes]
  · show isRelation n = true ↔ _
    rw [isRelation, m_relation]
  · show isOneOf n = true ↔ _
    rw [isOneOf, m_oneOf]
  · show isValues n = true ↔ _
    rw [isValues, m_values]
  · show isMixin n = true ↔ _
    rw [isMixin, m_mixin]

/-! ## The words -/

/-- The first three letters, either way. -/
def Item.start : Item → List Bytes
  | .headers => [str "Hea", str "hea"]
  | .parameters => [str "Par", str "par"]
  | .attributes => [str "Att", str "att"]
  | .body => [str "Bod", str "bod"]
  | .schema => [str "Sch", str "sch"]
  | .values => [str "Val", str "val"]
  | .oneOf => [str "One", str "one"]
  | .sampleDefault => [str "Def", str "def", str "Sam", str "sam"]
  | .valueMembers => [str "Ite", str "ite", str "Mem", str "mem"]
  | .propertyMembers => [str "Pro", str "pro"]
  | .mixin => [str "Inc", str "inc"]
  | .relation => [str "Rel", str "rel"]
  | .request => [str "Req", str "req"]
  | .response => [str "Res", str "res"]

theorem form_starts {i : Item} {s : Bytes} (h : i.Form s) : ∃ a k y, s = a ++ k ++ y ∧ Blanks a ∧ k ∈ Item.start i := by
  have go : ∀ {a b : Char} {t : String} {l : List Bytes} {x w y : Bytes}, Blanks x → Word a b t w →
      ((asc a :: str t).take 3 ∈ l ∧ (asc b :: str t).take 3 ∈ l) → s = x ++ w ++ y →
      ∃ a k y, s = a ++ k ++ y ∧ Blanks a ∧ k ∈ l := by
    rintro a b t l x w y hx hw h' he
    refine ⟨x, w.take 3, w.drop 3 ++ y, by
      rw [he, List.append_assoc, List.append_assoc, ← List.append_assoc (w.take 3), List.take_append_drop], hx, ?_⟩
    rcases hw with rfl | rfl
    · exact h'.1
    · exact h'.2
  cases i with
  | headers => obtain ⟨a, w, b, rfl, ha, hw | hw, _⟩ := h <;> exact go ha hw (by decide) rfl
  | parameters => obtain ⟨a, w, b, rfl, ha, hw | hw, _⟩ := h <;> exact go ha hw (by decide) rfl
  | attributes =>
    obtain ⟨a, w, b, r, rfl, ha, hw | hw, _⟩ := h <;> exact go ha hw (by decide) (by rw [List.append_assoc (a ++ w)])
  | body => obtain ⟨a, w, b, rfl, ha, hw, _⟩ := h; exact go ha hw (by decide) rfl
  | schema => obtain ⟨a, w, b, rfl, ha, hw, _⟩ := h; exact go ha hw (by decide) rfl
  | values => obtain ⟨a, w, b, rfl, ha, hw, _⟩ := h; exact go ha hw (by decide) rfl
  | oneOf => obtain ⟨a, v, b, w, c, rfl, ha, hv, _⟩ := h; exact go (y := b ++ w ++ c) ha hv (by decide) (by simp)
  | sampleDefault =>
    rcases h with ⟨a, w, b, r, rfl, ha, hw, _⟩ | ⟨a, w, b, r, rfl, ha, hw, _⟩ <;>
      exact go ha hw (by decide) (by rw [List.append_assoc (a ++ w)])
  | valueMembers => obtain ⟨a, w, b, rfl, ha, hw | hw, _⟩ := h <;> exact go ha hw (by decide) rfl
  | propertyMembers => obtain ⟨a, w, b, rfl, ha, hw, _⟩ := h; exact go ha hw (by decide) rfl
  | mixin => obtain ⟨a, w, b, r, rfl, ha, hw, _⟩ := h; exact go ha hw (by decide) (by rw [List.append_assoc (a ++ w)])
  | relation => obtain ⟨r, a, w, b, rfl, ha, hw, _⟩ := h; exact go ha hw (by decide) (by rw [List.append_assoc (a ++ w)])
  | request => obtain ⟨a, w, r, rfl, ha, hw⟩ := h; exact go ha hw (by decide) rfl
  | response => obtain ⟨a, w, r, rfl, ha, hw⟩ := h; exact go ha hw (by decide) rfl

theorem starts_exclusive {i j : Item} {a k y a' k' y' : Bytes} (he : a ++ k ++ y = a' ++ k' ++ y') (ha : Blanks a) (ha' : Blanks a')
    (hk : k ∈ Item.start i) (hk' : k' ∈ Item.start j) : i = j := by
  have len : ∀ i : Item, ∀ k ∈ Item.start i, k.length = 3 ∧ k.head? ≠ some 32 ∧ k.head? ≠ some 9 := by
    intro i; cases i <;> decide
  have sol : ∀ {i : Item} {k y : Bytes}, k ∈ Item.start i → Recognition.Solid (k ++ y) := by
    intro i k y hk c hc
    have := len i k hk
    cases k with
    | nil => simp at this
    | cons d k =>
      simp at hc; subst hc
      simpa using this.2
  rw [List.append_assoc, List.append_assoc] at he
  obtain ⟨_, he⟩ := cancel_blanks he ha ha' (sol hk) (sol hk')
  obtain ⟨hkk, _⟩ := List.append_inj he ((len i k hk).1.trans (len j k' hk').1.symm)
  subst hkk
  have dis : ∀ i j : Item, ∀ k ∈ Item.start i, k ∈ Item.start j → i = j := by
    intro i j; cases i <;> cases j <;> decide
  exact dis i j k hk hk'

/-- C77: no line has the form of two of these sections. -/
theorem C77_exclusive (i j : Item) (s : Bytes) (hi : i.Form s) (hj : j.Form s) : i = j := by
  obtain ⟨a, k, y, rfl, ha, hk⟩ := form_starts hi
  obtain ⟨a', k', y', he, ha', hk'⟩ := form_starts hj
  exact starts_exclusive he ha ha' hk hk'

theorem not_form {i : Item} {s : Bytes} (h : i.Form s) {j : Item} (hij : i ≠ j) : ¬ j.Form s := fun hj => hij (C77_exclusive i j s h hj)

/-! ## Payloads -/

/-- The item is a section of a payload. -/
def PayloadPart (n : Node) : Prop :=
  ∃ s, ItemLine n s ∧ (HeadersLine s ∨ BodyLine s ∨ SchemaLine s ∨ AttributesLine s ∨ ParametersLine s)

theorem first_undefined {l : List SectionType} : Recognise.first l = .undefined ↔ ∀ t ∈ l, t = .undefined := by
  induction l with
  | nil => simp [Recognise.first]
  | cons a l ih =>
    rw [Recognise.first]
    split
    · rename_i h; simp [h]
    · rename_i h; simp only [ne_eq, Decidable.not_not] at h; simp [h, ih]

theorem asset_iff {n : Node} : assetOf n ≠ .undefined ↔ BodyLine (cstr (frontLine n)) ∨ SchemaLine (cstr (frontLine n)) := by
  unfold assetOf
  rw [← m_body, ← m_schema]
  split
  · rename_i h; simp [h]
  · rename_i h
    split
    · rename_i h'; simp [h']
    · rename_i h'; simp [h, h']

theorem payloadNested_iff {n : Node} : payloadNested n ≠ .undefined ↔ PayloadPart n := by
  unfold payloadNested PayloadPart
  rw [Ne, first_undefined, itemLine_iff]
  by_cases hk : n.kind = .listItem ∧ n.children ≠ []
  · have h1 : ∀ b t, Recognise.ofList n (Recognise.when b t) = Recognise.when b t := by
      intro b t; simp only [Recognise.ofList, if_pos hk]
    have h2 : Recognise.ofList n (assetOf n) = assetOf n := by simp only [Recognise.ofList, if_pos hk]
    have h3 := asset_iff (n := n)
    simp only [h1, h2, hk, true_and, List.forall_mem_cons, List.not_mem_nil, false_imp_iff, implies_true, and_true]
    have w : ∀ {b : Bool} {t : SectionType}, t ≠ .undefined → (Recognise.when b t = .undefined ↔ ¬ b = true) := by
      intro b t ht; unfold Recognise.when; cases b <;> simp [ht]
    rw [w (by decide), w (by decide), w (by decide), isHeaders, isAttributes, isParameters, m_headers, m_attributes,
      m_parameters]
    constructor
    · intro h
      by_cases a1 : HeadersLine (cstr (frontLine n))
      · exact ⟨hk.2, .inl a1⟩
      by_cases a2 : assetOf n = .undefined
      · by_cases a3 : AttributesLine (cstr (frontLine n))
        · exact ⟨hk.2, .inr (.inr (.inr (.inl a3)))⟩
        by_cases a4 : ParametersLine (cstr (frontLine n))
        · exact ⟨hk.2, .inr (.inr (.inr (.inr a4)))⟩
        exact absurd ⟨a1, a2, a3, a4⟩ h
      · rcases h3.mp a2 with a2 | a2
        · exact ⟨hk.2, .inr (.inl a2)⟩
        · exact ⟨hk.2, .inr (.inr (.inl a2))⟩
    · rintro ⟨_, h⟩ ⟨a1, a2, a3, a4⟩
      rcases h with h | h | h | h | h
      · exact a1 h
      · exact h3.mpr (.inl h) a2
      · exact h3.mpr (.inr h) a2
      · exact a3 h
      · exact a4 h
  · have h1 : ∀ t, Recognise.ofList n t = .undefined := by intro t; simp only [Recognise.ofList, if_neg hk]
    simp only [h1, hk, false_and, iff_false]
    simp

/-- A kind of payload and whether it has sections. -/
def payloadTypes : List (PayloadKind × Bool × SectionType) :=
  [(.request, true, .request), (.request, false, .requestBody), (.response, true, .response),
    (.response, false, .responseBody), (.model, true, .model), (.model, false, .modelBody)]

theorem payloadKind_iff {t : Bytes} (k : PayloadKind) : payloadKind t = some k ↔
    match k with
    | .request => Item.Form .request (cstr t)
    | .response => Item.Form .response (cstr t)
    | .model => (∃ n m, ModelLine (cstr t) n m) ∧ ¬ Item.Form .request (cstr t) ∧ ¬ Item.Form .response (cstr t) := by
  have hr : regexMatch t requestRegex = true ↔ Item.Form .request (cstr t) := m_request
  have hs : regexMatch t responseRegex = true ↔ Item.Form .response (cstr t) := m_response
  unfold payloadKind
  by_cases h1 : Item.Form .request (cstr t)
  · have h2 := not_form h1 (j := .response) (by decide)
    rw [if_pos (hr.mpr h1)]
    cases k <;> simp [h1, h2]
  · rw [if_neg (fun h => h1 (hr.mp h))]
    by_cases h2 : Item.Form .response (cstr t)
    · rw [if_pos (hs.mpr h2)]
      cases k <;> simp [h1, h2]
    · rw [if_neg (fun h => h2 (hs.mp h))]
      by_cases h3 : ∃ n m, ModelLine (cstr t) n m
      · rw [if_pos (m_model.mpr h3)]; cases k <;> simp [h1, h2, h3]
      · rw [if_neg (fun h => h3 (m_model.mp h))]; cases k <;> simp [h1, h2, h3]

/-- C77: a list item is a request or a response exactly if its first line starts with that word, and a model exactly if the line
has the form of one and does not start with these words; the payload has sections exactly if one of its blocks is one. -/
theorem C77_payload (n : Node) (nested : Prop) [Decidable nested] (hn : nested ↔ ∃ c ∈ n.children, PayloadPart c) :
    (recognise.payloadType n = (if nested then .request else .requestBody) ↔ ∃ s, ItemLine n s ∧ Item.Form .request s) ∧
    (recognise.payloadType n = (if nested then .response else .responseBody) ↔ ∃ s, ItemLine n s ∧ Item.Form .response s) ∧
    (recognise.payloadType n = (if nested then .model else .modelBody) ↔
      ∃ s, ItemLine n s ∧ (∃ name m, ModelLine s name m) ∧ ¬ Item.Form .request s ∧ ¬ Item.Form .response s) ∧
    (recognise.payloadType n = .undefined ↔ ∀ s, ItemLine n s →
      ¬ Item.Form .request s ∧ ¬ Item.Form .response s ∧ ¬ ∃ name m, ModelLine s name m) := by
  have hany : (n.children.any fun c => payloadNested c ≠ .undefined) = decide nested := by
    rw [Bool.eq_iff_iff, List.any_eq_true, decide_eq_true_iff, hn]
    simp only [decide_eq_true_eq, payloadNested_iff]
  have hu : (∀ s, ItemLine n s → ¬ Item.Form .request s ∧ ¬ Item.Form .response s ∧ ¬ ∃ name m, ModelLine s name m) ↔
      ¬ ∃ s, ItemLine n s ∧ (Item.Form .request s ∨ Item.Form .response s ∨ ∃ name m, ModelLine s name m) := by
    simp only [not_exists, not_and, not_or]
  rw [hu, itemLine_iff, itemLine_iff, itemLine_iff, itemLine_iff]
  show (Recognise.ofList n (payloadOf n) = _ ↔ _) ∧ (Recognise.ofList n (payloadOf n) = _ ↔ _) ∧
    (Recognise.ofList n (payloadOf n) = _ ↔ _) ∧ (Recognise.ofList n (payloadOf n) = _ ↔ _)
  by_cases hk : n.kind = .listItem ∧ n.children ≠ []
  · rw [Recognise.ofList, if_pos hk, payloadOf, hany]
    have k1 := payloadKind_iff (t := frontLine n) .request
    have k2 := payloadKind_iff (t := frontLine n) .response
    have k3 := payloadKind_iff (t := frontLine n) .model
    simp only [] at k1 k2 k3
    simp only [eq_true hk, true_and, ← k1, ← k2]
    have k4 : (payloadKind (frontLine n) = some .request ∨ payloadKind (frontLine n) = some .response ∨
        ∃ name m, ModelLine (cstr (frontLine n)) name m) ↔ payloadKind (frontLine n) ≠ none := by
      rw [← k1, ← k2] at k3
      cases hpk : payloadKind (frontLine n) with
      | none => rw [hpk] at k3; simp only [reduceCtorEq, false_or, not_false_eq_true, and_true, false_iff] at k3; simp [k3]
      | some k =>
        rw [hpk] at k3
        cases k
        · simp
        · simp
        · simp only [ne_eq, reduceCtorEq, not_false_eq_true, iff_true]; exact .inr (.inr (k3.mp rfl).1)
    rw [← k1, ← k2] at k3
    rw [k4, ← k3]
    cases hpk : payloadKind (frontLine n) with
    | none => by_cases hne : nested <;> simp [hne]
    | some k => cases k <;> by_cases hne : nested <;> simp [payloadSection, hne]
  · simp only [Recognise.ofList, if_neg hk, hk, false_and, iff_false, not_false_eq_true, iff_true]
    by_cases hne : nested <;> simp [hne]

/-! ## Sections of MSON types -/

theorem typeSection_item {n : Node} (hk : n.kind = .listItem ∧ n.children ≠ []) : recognise.typeSectionType n =
    if regexMatch (frontLine n) defaultRegex || regexMatch (frontLine n) sampleRegex then .msonSampleDefault
    else if regexMatch (frontLine n) valueMembersRegex then .msonValueMembers
    else if regexMatch (frontLine n) propertyMembersRegex then .msonPropertyMembers
    else .undefined := by
  rw [Recognise.typeSectionType, if_pos (.inr hk)]
  show typeSectionOf n = _
  unfold typeSectionOf
  have h1 : ¬ (n.kind = .header ∧ n.text ≠ []) := by rw [hk.1]; rintro ⟨h, _⟩; cases h
  simp only [if_neg h1, if_pos hk]
  rfl

theorem typeSection_other {n : Node} (hl : n.kind = .listItem) (hk : ¬ (n.kind = .listItem ∧ n.children ≠ [])) :
    recognise.typeSectionType n = .undefined := by
  rw [Recognise.typeSectionType, if_neg]
  rintro (⟨h, _⟩ | h)
  · rw [hl] at h; cases h
  · exact hk h

/-- C77: the same for the sections of an MSON type that a list item starts. -/
theorem C77_type_section (n : Node) (hl : n.kind = .listItem) :
    (recognise.typeSectionType n = .msonSampleDefault ↔ ∃ s, ItemLine n s ∧ (DefaultLine s ∨ SampleLine s)) ∧
    (recognise.typeSectionType n = .msonValueMembers ↔ ∃ s, ItemLine n s ∧ ItemsLine s) ∧
    (recognise.typeSectionType n = .msonPropertyMembers ↔ ∃ s, ItemLine n s ∧ PropertiesLine s) := by
  simp only [itemLine_iff]
  by_cases hk : n.kind = .listItem ∧ n.children ≠ []
  · simp only [eq_true hk, true_and]
    have e := fun i j hi hj => C77_exclusive i j (cstr (frontLine n)) hi hj
    have e1 := e .sampleDefault .valueMembers
    have e2 := e .sampleDefault .propertyMembers
    have e3 := e .valueMembers .propertyMembers
    simp only [Item.Form, reduceCtorEq, imp_false] at e1 e2 e3
    rw [typeSection_item hk]
    rw [← m_default, ← m_sample, ← m_valueMembers, ← m_propertyMembers] at *
    by_cases h1 : (regexMatch (frontLine n) defaultRegex || regexMatch (frontLine n) sampleRegex) = true
    · rw [if_pos h1]
      simp only [Bool.or_eq_true] at h1
      simp [h1, e1 h1, e2 h1]
    · rw [if_neg h1]
      simp only [Bool.or_eq_true] at h1
      by_cases h2 : regexMatch (frontLine n) valueMembersRegex = true
      · rw [if_pos h2]; simp [h1, h2, e3 h2]
      · rw [if_neg h2]
        by_cases h3 : regexMatch (frontLine n) propertyMembersRegex = true
        · rw [if_pos h3]; simp [h1, h2, h3]
        · rw [if_neg h3]; simp [h1, h2, h3]
  · simp only [eq_false hk, false_and, iff_false, typeSection_other hl hk]
    simp

/-- A list item with this first line and no other block. -/
def oneItem (text : String) : Node := .mk .listItem [] [] [.mk .paragraph (str text) [] []]

example : recognise.headersType (oneItem "Headers") = .headers := by decide +kernel
example : recognise.parametersType (oneItem " parameter ") = .parameters := by decide +kernel
example : recognise.payloadType (oneItem "Request") = .requestBody := by decide +kernel
example : recognise.payloadType (oneItem "A Model") = .modelBody := by decide +kernel
example : recognise.payloadType (oneItem "Body") = .undefined := by decide +kernel
example : recognise.payloadType (.mk .listItem [] [] [.mk .paragraph (str "Response") [] [], oneItem "Body"]) = .response := by
  decide +kernel
example : recognise.typeSectionType (oneItem "Items") = .msonValueMembers := by decide +kernel
example : ItemLine (oneItem "Headers") (str "Headers") :=
  ⟨str "Headers", str "Headers", ⟨rfl, _, _, rfl, rfl⟩, firstLine_iff.mpr (by decide +kernel), seen_iff.mpr (by decide +kernel)⟩

end Verif.Props
