import Verif.Proof.SignatureLine
import Verif.Proof.Signature

/-! # The first line of a list item -/

namespace Verif.SignatureLine
open Verif Verif.Text Verif.Signature Verif.Spec Verif.Spec.SignatureLine

/-! ## The identifier -/

theorem identifierPart_iff {t : Traits} {line id r : Bytes} {w : List MsonParser.Warning} : IdentifierPart t line id r w ↔
    (id, r) = (if t.identifier && !line.isEmpty then parseIdentifier t line else ([], line)) ∧
      w = if t.identifier && !line.isEmpty && id.isEmpty then [.noIdentifier] else [] := by
  constructor
  · intro h
    cases h with
    | no h =>
      have : (t.identifier && !line.isEmpty) = false := by rcases h with h | rfl <;> simp [*]
      rw [this]; exact ⟨rfl, rfl⟩
    | @yes l i r' id s h1 h2 h3 h4 h5 h6 h7 =>
      have : (t.identifier && !line.isEmpty) = true := by simp [*]
      rw [if_pos this, this]
      refine ⟨(parseIdentifier_iff.mpr ⟨_, _, _, h3, h4, h5, h6⟩).symm, by simp [h7]⟩
    | blank h1 h2 h3 h4 h5 h6 =>
      have : (t.identifier && !line.isEmpty) = true := by simp [*]
      rw [if_pos this, this]
      refine ⟨(parseIdentifier_iff.mpr ⟨_, _, _, h3, h4, h5, h6⟩).symm, by simp⟩
  · rintro ⟨h1, rfl⟩
    by_cases hc : (t.identifier && !line.isEmpty) = true
    · rw [if_pos hc] at h1
      obtain ⟨l, i, q, h3, h4, h5, h6⟩ := parseIdentifier_iff.mp h1.symm
      simp only [Bool.and_eq_true, Bool.not_eq_true', List.isEmpty_eq_false_iff] at hc
      cases id with
      | nil => simp only [hc.1, Bool.true_and, List.isEmpty_nil, Bool.and_true]; rw [if_pos (by simpa using hc.2)]; exact .blank hc.1 hc.2 h3 h4 h5 h6
      | cons a b => simp only [List.isEmpty_cons, Bool.and_false]; exact .yes hc.1 hc.2 h3 h4 h5 h6 (by simp)
    · rw [if_neg hc] at h1
      injection h1 with h1 h2
      subst h1 h2
      rw [if_neg (by simp only [Bool.and_eq_true] at hc ⊢; exact fun h => hc h.1)]
      exact .no (by cases h : t.identifier <;> simp_all)

/-! ## The values -/

/-- What `parseSignature` makes of the values. -/
def valuesOf (t : Traits) (s : Bytes) : Bytes × List Bytes × Bytes :=
  if t.values && !s.isEmpty && s.head? ≠ some (asc '(') then
    let s := if t.identifier then s else t.valuesDelimiter :: s
    if s.head? = some t.valuesDelimiter then parseValues t s else ([], [], s)
  else ([], [], s)

/-- What `signatureWarnings` says of the values. -/
def valuesWarning (t : Traits) (s : Bytes) (vs : List Bytes) : List MsonParser.Warning :=
  if t.values && !s.isEmpty && s.head? ≠ some (asc '(') && (!t.identifier || s.head? = some t.valuesDelimiter)
      && vs.isEmpty then [.noValues] else []

theorem follow_of {t : Traits} (hd : t.valuesDelimiter ≠ asc '(') {s b : Bytes} (h : ValuesFollow t s b) :
    valuesOf t s = parseValues t (t.valuesDelimiter :: b) ∧ ∀ vs, valuesWarning t s vs = if vs.isEmpty then [.noValues] else [] := by
  cases h with
  | delimited h1 h2 => constructor <;> simp [valuesOf, valuesWarning, h1, h2, hd]
  | bare h1 h2 h3 h4 => constructor <;> simp [valuesOf, valuesWarning, h1, h2, h3, h4]

theorem follow_not {t : Traits} {s : Bytes} (h : ∀ b, ¬ ValuesFollow t s b) : valuesOf t s = ([], [], s) ∧ ∀ vs, valuesWarning t s vs = [] := by
  by_cases hv : t.values = true
  case neg => constructor <;> simp [valuesOf, valuesWarning, hv]
  cases hi : t.identifier with
  | true =>
    have hn : s.head? ≠ some t.valuesDelimiter := by
      intro hh
      cases s with
      | nil => cases hh
      | cons c s => simp only [List.head?_cons, Option.some.injEq] at hh; subst hh; exact h _ (.delimited hv hi)
    constructor <;> simp [valuesOf, valuesWarning, hv, hi, hn]
  | false =>
    have hn : s = [] ∨ s.head? = some (asc '(') := by
      cases s with
      | nil => exact .inl rfl
      | cons c s =>
        by_cases hc : c = asc '('
        · subst hc; exact .inr rfl
        · exact absurd (.bare hv hi (by simp) (by simp [hc])) (h (c :: s))
    rcases hn with rfl | hn
    · constructor <;> simp [valuesOf, valuesWarning]
    · constructor <;> simp [valuesOf, valuesWarning, hn]

theorem valuesPart_iff {t : Traits} (hd : t.valuesDelimiter ≠ asc '(') {s v r : Bytes} {vs : List Bytes} {w : List MsonParser.Warning} :
    ValuesPart t s v vs r w ↔ (v, vs, r) = valuesOf t s ∧ w = valuesWarning t s vs := by
  constructor
  · intro h
    cases h with
    | no h => obtain ⟨h1, h2⟩ := follow_not h; rw [h1, h2]; exact ⟨rfl, rfl⟩
    | yes h h1 h2 h3 h4 h5 h6 h7 =>
      obtain ⟨e1, e2⟩ := follow_of hd h
      rw [e1, e2]
      exact ⟨(parseValues_iff.mpr ⟨_, _, _, _, by simpa using h1, h2, h3, h4, h5, h6⟩).symm, by simp [h7]⟩
    | blank h h1 h2 h3 h4 h5 h6 =>
      obtain ⟨e1, e2⟩ := follow_of hd h
      rw [e1, e2]
      exact ⟨(parseValues_iff.mpr ⟨_, _, _, _, by simpa using h1, h2, h3, h4, h5, h6⟩).symm, by simp⟩
  · rintro ⟨h, rfl⟩
    by_cases hf : ∃ b, ValuesFollow t s b
    · obtain ⟨b, hf⟩ := hf
      obtain ⟨e1, e2⟩ := follow_of hd hf
      rw [e1] at h
      rw [e2]
      obtain ⟨b', x, x', r', h1, h2, h3, h4, h5, h6⟩ := parseValues_iff.mp h.symm
      simp only [List.drop_succ_cons, List.drop_zero] at h1
      cases vs with
      | nil => exact .blank hf h1 h2 h3 h4 h5 h6
      | cons a vs => exact .yes hf h1 h2 h3 h4 h5 h6 (by simp)
    · have hf' := fun b h => hf ⟨b, h⟩
      obtain ⟨e1, e2⟩ := follow_not hf'
      rw [e1] at h; rw [e2]
      injection h with h1 h2; injection h2 with h2 h3
      subst h1 h2 h3
      exact .no hf'

/-! ## The attributes and the content -/

/-- What `parseSignature` makes of the attributes. -/
def attributesOf (t : Traits) (s : Bytes) : Except Fault (List Bytes × Bytes) :=
  if t.attributes && !s.isEmpty && !(s.take t.contentDelimiter.length == t.contentDelimiter) then parseAttributes s else .ok ([], s)

theorem attributesPart_iff {t : Traits} (hd : ∃ c d, t.contentDelimiter = c :: d ∧ c ≠ asc '(') {s r : Bytes} {as : List Bytes} :
    AttributesPart t s as r ↔ attributesOf t s = .ok (as, r) := by
  obtain ⟨c, d, hcd, hc⟩ := hd
  have hb : ∀ b, attributesOf t (asc '(' :: b) = if t.attributes then parseAttributes (asc '(' :: b) else .ok ([], asc '(' :: b) := by
    intro b
    have : (List.take t.contentDelimiter.length (asc '(' :: b) == t.contentDelimiter) = false := by
      rw [hcd, List.length_cons, List.take_succ_cons, beq_eq_false_iff_ne]
      intro h; injection h with h; exact hc h.symm
    unfold attributesOf; rw [this]; simp
  have hn : s.head? ≠ some (asc '(') → attributesOf t s = .ok ([], s) := by
    intro h
    unfold attributesOf parseAttributes
    rw [if_pos h]; split <;> rfl
  constructor
  · intro h
    cases h with
    | no h =>
      by_cases h' : s.head? = some (asc '(')
      · obtain ⟨b, rfl⟩ : ∃ b, s = asc '(' :: b := by
          cases s with
          | nil => cases h'
          | cons x b => simp only [List.head?_cons, Option.some.injEq] at h'; exact ⟨b, by rw [h']⟩
        rcases h with h | h
        · rw [hb, h]; rfl
        · exact absurd h' h
      · exact hn h'
    | yes h1 h2 h3 h4 =>
      subst h2
      rw [hb, h1, if_pos rfl]
      exact parseAttributes_iff.mpr ⟨_, h3, h4⟩
  · intro h
    by_cases h' : s.head? = some (asc '(')
    · obtain ⟨b, rfl⟩ : ∃ b, s = asc '(' :: b := by
        cases s with
        | nil => cases h'
        | cons x b => simp only [List.head?_cons, Option.some.injEq] at h'; exact ⟨b, by rw [h']⟩
      rw [hb] at h
      cases ha : t.attributes with
      | true =>
        rw [ha, if_pos rfl] at h
        obtain ⟨q, h3, h4⟩ := parseAttributes_iff.mp h
        exact .yes ha rfl h3 h4
      | false =>
        rw [ha] at h
        simp only [Bool.false_eq_true, if_false, Except.ok.injEq, Prod.mk.injEq] at h
        obtain ⟨rfl, rfl⟩ := h
        exact .no (.inl ha)
    · rw [hn h'] at h
      simp only [Except.ok.injEq, Prod.mk.injEq] at h
      obtain ⟨rfl, rfl⟩ := h
      exact .no (.inr h')

theorem contentPart_iff {t : Traits} (hd : t.contentDelimiter ≠ []) {s c : Bytes} : ContentPart t s c ↔
    c = if t.content && !s.isEmpty && (s.take t.contentDelimiter.length == t.contentDelimiter) then trim (s.drop t.contentDelimiter.length)
      else [] := by
  have hp : (s.take t.contentDelimiter.length == t.contentDelimiter) = true ↔ t.contentDelimiter <+: s := by
    rw [beq_iff_eq, take_eq_iff_prefix]
  constructor
  · intro h
    cases h with
    | yes h1 h2 h3 =>
      subst h2
      rw [if_pos (by simp [h1, hd]), List.drop_left]
      exact trimmed_eq.mp h3
    | no h =>
      rw [if_neg]
      simp only [Bool.and_eq_true, hp]
      rintro ⟨⟨h1, _⟩, h2⟩
      rcases h with h | h
      · rw [h1] at h; cases h
      · exact h h2
  · rintro rfl
    by_cases h : t.content = true ∧ t.contentDelimiter <+: s
    · obtain ⟨h1, b, rfl⟩ := h
      rw [if_pos (by simp [h1, hd]), List.drop_left]
      exact .yes h1 rfl (trim_spec _)
    · rw [if_neg (by simp only [Bool.and_eq_true, hp]; exact fun h' => h ⟨h'.1.1, h'.2⟩)]
      refine .no ?_
      cases h1 : t.content with
      | false => exact .inl rfl
      | true => exact .inr fun h2 => h ⟨h1, h2⟩

/-! ## The line -/

theorem usual_values {t : Traits} (h : Usual t) : t.valuesDelimiter ≠ asc '(' := by
  rcases h.1 with h | h <;> rw [h] <;> decide

theorem usual_content {t : Traits} (h : Usual t) : ∃ c d, t.contentDelimiter = c :: d ∧ c ≠ asc '(' := by
  rcases h.2 with h | h <;> rw [h]
  · exact ⟨asc '-', [], rfl, by decide⟩
  · exact ⟨asc '.', str "..", rfl, by decide⟩

/-- What `parseSignature` makes of the identifier. -/
def identifierOf (t : Traits) (line : Bytes) : Bytes × Bytes :=
  if t.identifier && !line.isEmpty then parseIdentifier t line else ([], line)

theorem parseSignature_parts (t : Traits) (line : Bytes) : parseSignature t line =
    (attributesOf t (valuesOf t (identifierOf t line).2).2.2).bind fun r =>
      .ok { identifier := (identifierOf t line).1, value := (valuesOf t (identifierOf t line).2).1,
            values := (valuesOf t (identifierOf t line).2).2.1, attributes := r.1,
            content := if t.content && !r.2.isEmpty && (r.2.take t.contentDelimiter.length == t.contentDelimiter)
              then trim (r.2.drop t.contentDelimiter.length) else [] } := by
  rfl

theorem signatureWarnings_parts (t : Traits) (line : Bytes) (sig : Signature) : MsonParser.signatureWarnings t line sig =
    (if t.identifier && !line.isEmpty && sig.identifier.isEmpty then [.noIdentifier] else []) ++
      valuesWarning t (identifierOf t line).2 sig.values := by
  unfold MsonParser.signatureWarnings valuesWarning identifierOf
  cases h : (t.identifier && !line.isEmpty) <;> simp

theorem signature_iff {t : Traits} (hu : Usual t) {line : Bytes} {sig : Signature} {ws : List MsonParser.Warning} :
    SignatureLine t line sig ws ↔ parseSignature t line = .ok sig ∧ MsonParser.signatureWarnings t line sig = ws := by
  have hcd : t.contentDelimiter ≠ [] := by obtain ⟨c, d, h, _⟩ := usual_content hu; rw [h]; simp
  rw [parseSignature_parts, signatureWarnings_parts]
  unfold SignatureLine
  simp only [identifierPart_iff, valuesPart_iff (usual_values hu), attributesPart_iff (usual_content hu), contentPart_iff hcd]
  constructor
  · rintro ⟨s₁, s₂, s₃, w₁, w₂, ⟨h1, rfl⟩, ⟨h2, rfl⟩, h3, h4, h5, rfl⟩
    have e1 : identifierOf t line = (sig.identifier, s₁) := h1.symm
    rw [e1]
    dsimp only
    rw [← h2]
    dsimp only
    rw [h3]
    refine ⟨?_, rfl⟩
    simp only [Except.bind, Except.ok.injEq]
    rw [← h4]
    cases sig; simp only at h5; rw [h5]
  · rintro ⟨h, rfl⟩
    cases ha : attributesOf t (valuesOf t (identifierOf t line).2).2.2 with
    | error e => rw [ha] at h; cases h
    | ok x =>
      rw [ha] at h
      simp only [Except.bind, Except.ok.injEq] at h
      subst h
      exact ⟨(identifierOf t line).2, (valuesOf t (identifierOf t line).2).2.2, x.2, _, _, ⟨rfl, rfl⟩, ⟨rfl, rfl⟩, ha, rfl, rfl, rfl⟩

/-! ## Torn lines -/

theorem torn_or : ∀ (n : Nat) (s : Bytes), s.length ≤ n → (∃ as r, AttributeList s as r) ∨ Torn s
  | n, s, h => by
    obtain ⟨m, q, t, hs, _⟩ := scan_total s.length s (str "),") (Nat.le_refl _) attr_closers
    cases q with
    | none =>
      by_cases hm : m = []
      · subst hm; exact .inr (.over hs)
      · by_cases hl : m.getLast? = some (asc ',')
        · exact .inr (.comma hs hl)
        · exact .inl ⟨_, _, .unclosed hs hm hl (attribute_iff.mpr rfl)⟩
    | some q =>
      obtain ⟨c, s'⟩ := q
      have hlt := scan_le hs _ rfl
      have hcs : c = asc ')' ∨ c = asc ',' := by simpa [str] using scan_stop hs
      rcases hcs with rfl | rfl
      · by_cases hm : m = []
        · subst hm; exact .inr (.closed hs)
        · exact .inl ⟨_, _, .closed hs hm (attribute_iff.mpr rfl)⟩
      · cases n with
        | zero => simp at hlt; omega
        | succ n =>
          rcases torn_or n s' (by simp at hlt; omega) with ⟨as, r, h'⟩ | h'
          · exact .inl ⟨_, _, .more hs (attribute_iff.mpr rfl) h'⟩
          · exact .inr (.more hs h')

theorem torn_not {s : Bytes} (h : Torn s) : ∀ {as r}, ¬ AttributeList s as r := by
  have cl := attr_closers
  induction h with
  | more hs _ ih =>
    intro as r h'
    cases h' with
    | more h1 _ h2 =>
      have e := (scan_one hs cl h1).2.1
      injection e with e; injection e with _ e; subst e
      exact ih h2
    | closed h1 => exact absurd (stop_eq (scan_one hs cl h1).2.1) (by decide)
    | unclosed h1 => cases (scan_one hs cl h1).2.1
  | closed hs =>
    intro as r h'
    cases h' with
    | more h1 => exact absurd (stop_eq (scan_one hs cl h1).2.1) (by decide)
    | closed h1 h2 => exact h2 (scan_one hs cl h1).1
    | unclosed h1 => cases (scan_one hs cl h1).2.1
  | over hs =>
    intro as r h'
    cases h' with
    | more h1 => cases (scan_one hs cl h1).2.1
    | closed h1 => cases (scan_one hs cl h1).2.1
    | unclosed h1 h2 => exact h2 (scan_one hs cl h1).1
  | comma hs hl =>
    intro as r h'
    cases h' with
    | more h1 => cases (scan_one hs cl h1).2.1
    | closed h1 => cases (scan_one hs cl h1).2.1
    | unclosed h1 _ h2 => rw [(scan_one hs cl h1).1] at h2; exact h2 hl

theorem attributes_error {t : Traits} (hd : ∃ c d, t.contentDelimiter = c :: d ∧ c ≠ asc '(') {s : Bytes} :
    (∀ as r, attributesOf t s ≠ .ok (as, r)) ↔ t.attributes = true ∧ ∃ b, s = asc '(' :: b ∧ Torn b := by
  constructor
  · intro h
    have h' : ∀ as r, ¬ AttributesPart t s as r := fun as r hp => h as r ((attributesPart_iff hd).mp hp)
    cases ha : t.attributes with
    | false => exact absurd (.no (.inl ha)) (h' [] s)
    | true =>
      by_cases hb : s.head? = some (asc '(')
      · obtain ⟨b, rfl⟩ : ∃ b, s = asc '(' :: b := by
          cases s with
          | nil => cases hb
          | cons x b => simp only [List.head?_cons, Option.some.injEq] at hb; exact ⟨b, by rw [hb]⟩
        refine ⟨rfl, b, rfl, ?_⟩
        rcases torn_or _ b (Nat.le_refl _) with ⟨as, r, h2⟩ | h2
        · exact absurd (.yes ha rfl h2 (trim_spec _)) (h' as (trim r))
        · exact h2
      · exact absurd (.no (.inr hb)) (h' [] s)
  · rintro ⟨ha, b, rfl, ht⟩ as r h
    have hp := (attributesPart_iff hd).mpr h
    clear h
    generalize e : asc '(' :: b = l at hp
    cases hp with
    | no h =>
      rcases h with h | h
      · rw [ha] at h; cases h
      · subst e; exact h rfl
    | yes _ h1 h2 =>
      rw [← e] at h1
      injection h1 with _ h1; subst h1
      exact torn_not ht h2

theorem signature_fuel (t : Traits) (line : Bytes) : parseSignature t line ≠ .error .fuel := by
  rw [parseSignature_parts]
  unfold attributesOf
  split
  · have := parseAttributes_fuel (valuesOf t (identifierOf t line).2).2.2
    cases h : parseAttributes (valuesOf t (identifierOf t line).2).2.2 with
    | ok => simp [Except.bind]
    | error e => rw [h] at this; simpa [Except.bind] using this
  · simp [Except.bind]

theorem torn_iff {t : Traits} (hu : Usual t) {line : Bytes} : parseSignature t line = .error .outOfBounds ↔ TornLine t line := by
  have hf := signature_fuel t line
  have hparts := parseSignature_parts t line
  have he : parseSignature t line = .error .outOfBounds ↔ ∀ as r, attributesOf t (valuesOf t (identifierOf t line).2).2.2 ≠ .ok (as, r) := by
    cases ha : attributesOf t (valuesOf t (identifierOf t line).2).2.2 with
    | ok x => rw [hparts, ha]; simp [Except.bind]; exact ⟨x.1, x.2, rfl⟩
    | error e =>
      rw [hparts, ha] at hf ⊢
      cases e with
      | fuel => exact absurd rfl hf
      | outOfBounds => simp [Except.bind]
  rw [he, attributes_error (usual_content hu)]
  unfold TornLine
  simp only [identifierPart_iff, valuesPart_iff (usual_values hu)]
  constructor
  · rintro ⟨ha, b, hb, ht⟩
    refine ⟨(identifierOf t line).1, (identifierOf t line).2, _, (valuesOf t (identifierOf t line).2).1, (valuesOf t (identifierOf t line).2).2.1, b, _,
      ⟨rfl, rfl⟩, ⟨?_, rfl⟩, ha, ht⟩
    rw [← hb]
  · rintro ⟨id, s₁, w₁, v, vs, b, w₂, ⟨h1, _⟩, ⟨h2, _⟩, ha, ht⟩
    have e1 : identifierOf t line = (id, s₁) := h1.symm
    rw [e1]
    dsimp only
    rw [← h2]
    exact ⟨ha, b, rfl, ht⟩

end Verif.SignatureLine
