import Verif.Proof.PayloadParts

/-! # The sections of a payload -/

namespace Verif.Payload
open Verif Verif.Text Verif.Regex Verif.Section Verif.Recognition Verif.Spec Verif.Spec.Recognition Verif.Spec.Payload Verif.Props
open Verif.References (Header)

/-! ## Headers -/

theorem readHeaders_of {w : World} {ranges : List ByteBuffer.Range} {p : Payload} {vs ws : List Warning} {hs' : List Header}
    (h : HeadersIn w ranges p.headers hs' ws) : readHeaders w ranges ⟨p, vs⟩ = ⟨{ p with headers := hs' }, vs ++ ws⟩ := by
  obtain ⟨us, h, rfl⟩ := h
  unfold readHeaders
  simp only [h]

theorem headersIn_total (w : World) (ranges : List ByteBuffer.Range) (hs : List Header) : ∃ hs' ws, HeadersIn w ranges hs hs' ws :=
  ⟨_, _, _, rfl, rfl⟩

theorem headerBlocks_of {w : World} {parent : SectionType} {hs hs' : List Header} {ns : List Node} {ws : List Warning}
    (h : HeaderBlocks w parent hs ns hs' ws) : ∀ {p : Payload} {vs : List Warning}, p.headers = hs →
    ns.foldl (fun d n => readHeaders w n.sourceMap (d.warn (contentAsCodeBlock w .headers parent n).2)) ⟨p, vs⟩ =
      ⟨{ p with headers := hs' }, vs ++ ws⟩ := by
  induction h with
  | nil => rintro p vs rfl; simp
  | cons h1 h2 _ ih =>
    rintro p vs rfl
    rw [reports_iff (w := w)] at h1
    subst h1
    rw [List.foldl_cons, Data.warn, readHeaders_of h2, ih rfl]
    simp [List.append_assoc]

theorem headerBlocks_total (w : World) (parent : SectionType) (ns : List Node) : ∀ hs, ∃ hs' ws, HeaderBlocks w parent hs ns hs' ws := by
  induction ns with
  | nil => intro hs; exact ⟨_, _, .nil⟩
  | cons n ns ih =>
    intro hs
    obtain ⟨hs₁, b, h⟩ := headersIn_total w n.sourceMap hs
    obtain ⟨hs', c, h'⟩ := ih hs₁
    exact ⟨hs', _, .cons ((reports_iff (w := w)).mpr rfl) h h'⟩

theorem noHeaders_iff {hs : List Header} {ws : List Warning} : NoHeaders hs ws ↔ ws = if hs.isEmpty then [.noHeaders] else [] := by
  constructor
  · intro h
    cases h with
    | none => rfl
    | some h => cases hs with
      | nil => exact absurd rfl h
      | cons => rfl
  · rintro rfl
    cases hs with
    | nil => exact .none
    | cons => exact .some (by simp)

theorem headersRead_of {w : World} {parent : SectionType} {n sig : Node} {blocks : List Node} (hp : Parts n sig blocks) {p : Payload}
    {hs' : List Header} {vs ws : List Warning} (h : HeadersRead w parent n p.headers hs' ws) :
    headersResult w parent sig blocks ⟨p, vs⟩ = ⟨{ p with headers := hs' }, vs ++ ws⟩ := by
  obtain ⟨sig', blocks', pre, post, rest, hs₁, a, b, c, d, e, h1, h2, h3, h4, h5, h6, h7, h8, rfl⟩ := h
  obtain ⟨rfl, rfl⟩ := parts_uniq hp h1
  obtain ⟨rfl, rfl⟩ := starts_until.mp h2
  rw [multiline_iff h3] at h4
  rw [strays_iff] at h7
  rw [noHeaders_iff] at h8
  subst h4 h7 h8
  have e1 := readHeaders_of (vs := vs ++ (signatureContent .headers parent sig).2) h5
  have e2 := headerBlocks_of h6 (p := { p with headers := hs₁ }) (vs := vs ++ (signatureContent .headers parent sig).2 ++ b) rfl
  unfold headersResult
  rw [show (⟨p, vs⟩ : Data).warn (signatureContent .headers parent sig).2 = ⟨p, vs ++ (signatureContent .headers parent sig).2⟩ from rfl]
  simp only [e1, e2]
  simp [Data.warn, List.append_assoc]

theorem headersRead_total (w : World) (parent : SectionType) {n sig : Node} {blocks : List Node} (hp : Parts n sig blocks)
    (hs : List Header) : ∃ hs' ws, HeadersRead w parent n hs hs' ws := by
  obtain ⟨hs₁, b, h⟩ := headersIn_total w (sig.sourceMap.drop 1) hs
  obtain ⟨hs', c, h'⟩ := headerBlocks_total w parent (blocks.takeWhile plain) hs₁
  exact ⟨hs', _, sig, blocks, _, _, _, hs₁, _, b, c, _, _, hp, starts_until.mpr ⟨rfl, rfl⟩, remainder_iff.mpr rfl,
    (multiline_iff (remainder_iff.mpr rfl)).mpr rfl, h, h', strays_iff.mpr rfl, noHeaders_iff.mpr rfl, rfl⟩

/-! ## Kinds of sections -/

theorem nested_part (n : Node) : (payloadNested n = .headers ↔ HeadersItem n) ∧ (payloadNested n = .attributes ↔ AttributesItem n) ∧
    (payloadNested n = .parameters ↔ ParametersItem n) := by
  unfold HeadersItem AttributesItem ParametersItem
  rw [itemLine_iff, itemLine_iff, itemLine_iff]
  unfold payloadNested
  simp only [Recognise.first, Recognise.ofList, Recognise.when]
  by_cases hk : n.kind = .listItem ∧ n.children ≠ []
  · simp only [if_pos hk, eq_true hk, true_and]
    have e1 : isHeaders n = true ↔ HeadersLine (cstr (frontLine n)) := by show _ ↔ _; rw [isHeaders, m_headers]
    have e2 : isAttributes n = true ↔ AttributesLine (cstr (frontLine n)) := by show _ ↔ _; rw [isAttributes, m_attributes]
    have e3 : isParameters n = true ↔ ParametersLine (cstr (frontLine n)) := by show _ ↔ _; rw [isParameters, m_parameters]
    have a1 : isAttributes n = true → isHeaders n = false := by
      intro h; rw [← Bool.not_eq_true, e1]; exact not_form (i := .attributes) (e2.mp h) (j := .headers) (by decide)
    have a2 : isParameters n = true → isHeaders n = false := by
      intro h; rw [← Bool.not_eq_true, e1]; exact not_form (i := .parameters) (e3.mp h) (j := .headers) (by decide)
    have a3 : isParameters n = true → isAttributes n = false := by
      intro h; rw [← Bool.not_eq_true, e2]; exact not_form (i := .parameters) (e3.mp h) (j := .attributes) (by decide)
    have b1 : isAttributes n = true → assetOf n = .undefined := by
      intro h
      by_cases hu : assetOf n = .undefined
      · exact hu
      · rcases asset_iff.mp hu with hu | hu
        · exact absurd hu (not_form (i := .attributes) (e2.mp h) (j := .body) (by decide))
        · exact absurd hu (not_form (i := .attributes) (e2.mp h) (j := .schema) (by decide))
    have b2 : isParameters n = true → assetOf n = .undefined := by
      intro h
      by_cases hu : assetOf n = .undefined
      · exact hu
      · rcases asset_iff.mp hu with hu | hu
        · exact absurd hu (not_form (i := .parameters) (e3.mp h) (j := .body) (by decide))
        · exact absurd hu (not_form (i := .parameters) (e3.mp h) (j := .schema) (by decide))
    have b3 : assetOf n = .undefined ∨ assetOf n = .body ∨ assetOf n = .schema := by
      unfold assetOf; split <;> simp; split <;> simp
    rw [← e1, ← e2, ← e3]
    clear e1 e2 e3
    generalize isHeaders n = x at *
    generalize isAttributes n = y at *
    generalize isParameters n = z at *
    generalize assetOf n = t at *
    cases x <;> cases y <;> cases z <;> simp at a1 a2 a3 b1 b2 <;> rcases b3 with rfl | rfl | rfl <;> simp at *
  · simp only [if_neg hk, eq_false hk, false_and, iff_false]
    simp

theorem headers_iff (n : Node) : payloadNested n = .headers ↔ HeadersItem n := (nested_part n).1
theorem attributes_iff (n : Node) : payloadNested n = .attributes ↔ AttributesItem n := (nested_part n).2.1
theorem parameters_iff (n : Node) : payloadNested n = .parameters ↔ ParametersItem n := (nested_part n).2.2

/-! ## One block -/

theorem again_iff {t : SectionType} {p : Payload} {vs ws : List Warning} (ht : t = .body ∨ t = .schema) :
    Again t (getAsset t p) ws ↔ (redefinition t ⟨p, vs⟩).warnings = vs ++ ws := by
  unfold redefinition Data.warn
  simp only [List.append_cancel_left_eq]
  constructor
  · intro h
    cases h with
    | yes h => rw [if_neg (by simpa using h)]
    | no h => rw [if_pos (by simpa using h)]
  · intro h
    subst h
    split
    · rename_i h; exact .no (by simpa using h)
    · rename_i h; exact .yes (by simpa using h)

variable {w : World} {context : SectionType} {outer : List SectionType}

theorem part_of {n : Node} {last : SectionType} {inBody : Bool} {p q : Payload} {vs ws : List Warning} (hb : inBody = true ↔ last = .body)
    (h : Part w context inBody n p q ws) : sectionData w context outer n last ⟨p, vs⟩ = .ok ⟨q, vs ++ ws⟩ := by
  have text : ∀ a b, n.kind = a → a ≠ .listItem → payloadNested n = b → b = .undefined := by
    rintro a b rfl h rfl
    by_cases hu : payloadNested n = .undefined
    · exact hu
    · exact absurd (nested_item hu).1 h
  cases h with
  | headers h1 h2 =>
    have hn := (headers_iff n).mpr h1
    obtain ⟨sig, blocks, hp⟩ := read_of_nested (n := n) (by rw [hn]; decide)
    unfold sectionData
    rw [hn, (parts_iff.mp hp).2]
    simp only
    rw [headersRead_of hp h2]
  | body h1 h2 h3 =>
    have hn := (body_iff n).mpr h1
    obtain ⟨sig, blocks, hp⟩ := read_of_nested (n := n) (by rw [hn]; decide)
    obtain ⟨rfl, rfl⟩ := (assetRead_iff hp).mp h3
    unfold sectionData
    rw [hn, (parts_iff.mp hp).2]
    simp only
    rw [(again_iff (t := .body) (p := p) (vs := vs) (.inl rfl)).mp h2]
    simp [setAsset]
  | schema h1 h2 h3 =>
    have hn := (schema_iff n).mpr h1
    obtain ⟨sig, blocks, hp⟩ := read_of_nested (n := n) (by rw [hn]; decide)
    obtain ⟨rfl, rfl⟩ := (assetRead_iff hp).mp h3
    unfold sectionData
    rw [hn, (parts_iff.mp hp).2]
    simp only
    rw [(again_iff (t := .schema) (p := p) (vs := vs) (.inr rfl)).mp h2]
    simp [setAsset]
  | attributes h1 h2 =>
    unfold sectionData
    rw [(attributes_iff n).mpr h1]
    simp only [h2]
  | parameters h1 h2 h3 =>
    unfold sectionData
    rw [(parameters_iff n).mpr h1]
    simp only [h3, h2, ne_eq, not_true_eq_false, if_false]
  | foreign h1 h2 =>
    unfold sectionData
    rw [(parameters_iff n).mpr h1]
    simp only [h2, ne_eq, not_false_eq_true, if_true, Data.warn]
  | code h1 h2 h3 h4 h5 =>
    rw [maybe_iff] at h5
    subst h5
    rw [sectionData_undefined _ _ (text _ _ h2 (by decide) rfl)]
    unfold payloadUnexpected
    rw [if_pos ⟨.inr h2, hb.mp h1⟩]
    unfold addDangling
    rw [if_pos h2, if_pos h2, hb.mp h1]
    cases ht : twoNewLines n.text with
    | none => rcases twoNewLines_none.mp ht with h | h <;> contradiction
    | some r =>
      simp only [twoNewLines_closed ht, PD.top]
      rw [List.append_assoc]
      rfl
  | @paragraph a v h1 h2 h3 h4 h5 h6 =>
    rw [maybe_iff] at h6
    subst h6
    rw [sectionData_undefined _ _ (text _ _ h2 (by decide) rfl)]
    unfold payloadUnexpected
    rw [if_pos ⟨.inl h2, hb.mp h1⟩]
    unfold addDangling
    rw [if_neg (by rw [h2]; decide), if_neg (by rw [h2]; decide), hb.mp h1, sourceOf, h3]
    cases ht : twoNewLines v with
    | none => rcases twoNewLines_none.mp ht with h | h <;> contradiction
    | some r =>
      simp only [twoNewLines_closed ht, PD.top]
      rw [List.append_assoc]
      rfl
  | ignored h1 h2 h3 =>
    rw [strays_iff] at h3
    subst h3
    rw [← payloadNested_iff, ne_eq, Decidable.not_not] at h1
    rw [sectionData_undefined _ _ h1]
    unfold payloadUnexpected
    rw [if_neg]
    · rfl
    · rintro ⟨h, h'⟩
      exact h2 ⟨hb.mpr h', h⟩

theorem part_exists {n : Node} {last : SectionType} {inBody : Bool} {p : Payload} {vs : List Warning} {d : Data} (hb : inBody = true ↔ last = .body)
    (h : sectionData w context outer n last ⟨p, vs⟩ = .ok d) : ∃ q ws, Part w context inBody n p q ws := by
  by_cases hu : payloadNested n = .undefined
  · rw [sectionData_undefined _ _ hu] at h
    unfold payloadUnexpected at h
    have hn : ¬ PayloadPart n := by rw [← payloadNested_iff]; simpa using hu
    split at h
    · rename_i hk
      unfold addDangling at h
      by_cases hc : n.kind = .code
      · rw [if_pos hc] at h
        cases ht : twoNewLines n.text with
        | none => rw [ht] at h; cases h
        | some r =>
          have hne : ¬ (n.text = [] ∨ n.text = [asc '\n']) := by rw [← twoNewLines_none, ht]; simp
          rw [not_or] at hne
          exact ⟨_, _, .code (hb.mpr hk.2) hc hne.1 hne.2 (maybe_iff.mpr rfl)⟩
      · have hp : n.kind = .paragraph := hk.1.resolve_right hc
        rw [if_neg hc, sourceOf] at h
        generalize hv : ByteBuffer.mapBytesRangeSet n.sourceMap w.source = v at h
        cases ht : twoNewLines v with
        | none => rw [ht] at h; cases h
        | some r =>
          have hne : ¬ (v = [] ∨ v = [asc '\n']) := by rw [← twoNewLines_none, ht]; simp
          rw [not_or] at hne
          exact ⟨_, _, .paragraph (hb.mpr hk.2) hp hv hne.1 hne.2 (maybe_iff.mpr rfl)⟩
    · rename_i hk
      exact ⟨_, _, .ignored hn (fun ⟨a, b⟩ => hk ⟨b, hb.mp a⟩) (strays_iff.mpr rfl)⟩
  · obtain ⟨sig, blocks, hp⟩ := read_of_nested hu
    rcases nested_cases n with hm | hm | hm | hm | hm | hm
    · obtain ⟨hs', ws, h⟩ := headersRead_total w context hp p.headers
      exact ⟨_, _, .headers ((headers_iff n).mp hm) h⟩
    · exact ⟨_, _, .body ((body_iff n).mp hm) ((again_iff (t := .body) (p := p) (vs := vs) (.inl rfl)).mpr rfl) ((assetRead_iff hp).mpr ⟨rfl, rfl⟩)⟩
    · exact ⟨_, _, .schema ((schema_iff n).mp hm) ((again_iff (t := .schema) (p := p) (vs := vs) (.inr rfl)).mpr rfl) ((assetRead_iff hp).mpr ⟨rfl, rfl⟩)⟩
    · exact ⟨_, _, .attributes ((attributes_iff n).mp hm) rfl⟩
    · by_cases hc : context = .request
      · exact ⟨_, _, .parameters ((parameters_iff n).mp hm) hc rfl⟩
      · exact ⟨_, _, .foreign ((parameters_iff n).mp hm) hc⟩
    · exact absurd hm hu

theorem part_iff {n : Node} {last : SectionType} {inBody : Bool} {p : Payload} {vs : List Warning} {d : Data} (hb : inBody = true ↔ last = .body) :
    sectionData w context outer n last ⟨p, vs⟩ = .ok d ↔ ∃ q ws, Part w context inBody n p q ws ∧ d = ⟨q, vs ++ ws⟩ := by
  constructor
  · intro h
    obtain ⟨q, ws, hp⟩ := part_exists hb h
    refine ⟨q, ws, hp, ?_⟩
    rw [part_of hb hp] at h
    cases h; rfl
  · rintro ⟨q, ws, hp, rfl⟩
    exact part_of hb hp

/-! ## All blocks -/

theorem leaves_iff {n : Node} {ns : List Node} {last : SectionType} {b b' : Bool} (hb : b = true ↔ last = .body) (h : Leaves b n ns b')
    (hns : ns ≠ []) : b' = true ↔ lastOf payloadNested n ns last = .body := by
  unfold lastOf
  cases h with
  | body h =>
    have hn := (body_iff n).mpr h
    rw [if_pos ⟨hns, .inl (by rw [hn]; decide)⟩]
    simp [hn]
  | part h1 h2 =>
    rw [← body_iff] at h2
    rw [if_pos ⟨hns, .inl (payloadNested_iff.mpr h1)⟩]
    simp [h2]
  | text h1 h2 h3 =>
    rw [← payloadNested_iff, ne_eq, Decidable.not_not] at h1
    rw [if_neg]
    · exact hb
    · rintro ⟨_, h | h⟩
      · exact h h1
      · rw [h2, (textBlock_iff _).mpr h3] at h; cases h
  | other h1 h2 =>
    rw [← payloadNested_iff, ne_eq, Decidable.not_not] at h1
    rw [if_pos ⟨hns, .inr (isText_false h2)⟩, h1]
    decide

theorem leaves_total (b : Bool) (n : Node) (ns : List Node) : ∃ b', Leaves b n ns b' := by
  by_cases h : PayloadPart n
  · by_cases h' : BodyItem n
    · exact ⟨_, .body h'⟩
    · exact ⟨_, .part h h'⟩
  · cases ns with
    | nil => exact ⟨_, .other h (by simp)⟩
    | cons m ns =>
      by_cases ht : TextBlock m
      · exact ⟨_, .text h rfl ht⟩
      · refine ⟨_, .other h ?_⟩
        rintro m' ⟨⟩
        exact ht

theorem sections_iff {ns : List Node} : ∀ {last : SectionType} {b : Bool} {p : Payload} {vs : List Warning} {d : Data},
    (ns ≠ [] → (b = true ↔ last = .body)) →
    (loop (sectionData w context outer) payloadNested ns last ⟨p, vs⟩ = .ok d ↔
      ∃ q ws, Sections w context b p ns q ws ∧ d = ⟨q, vs ++ ws⟩) := by
  induction ns with
  | nil =>
    intro last b p vs d hb
    rw [loop]
    constructor
    · intro h; cases h; exact ⟨_, _, .done, by simp⟩
    · rintro ⟨q, ws, h, rfl⟩; cases h; simp
  | cons n ns ih =>
    intro last b p vs d hb
    have hb := hb (by simp)
    obtain ⟨b', hl⟩ := leaves_total b n ns
    constructor
    · intro h
      obtain ⟨d₁, h1, h2⟩ := loop_cons h
      obtain ⟨p₁, a, hp, rfl⟩ := (part_iff hb).mp h1
      obtain ⟨q, c, hs, rfl⟩ := (ih (leaves_iff hb hl)).mp h2
      exact ⟨q, a ++ c, .next hp hl hs, by simp [List.append_assoc]⟩
    · rintro ⟨q, ws, h, rfl⟩
      cases h with
      | next hp hl hs =>
        rw [loop, (part_iff hb).mpr ⟨_, _, hp, rfl⟩]
        simp only
        rw [(ih (leaves_iff hb hl)).mpr ⟨_, _, hs, rfl⟩]
        simp [List.append_assoc]

end Verif.Payload
