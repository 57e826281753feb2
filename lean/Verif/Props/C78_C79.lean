import Verif.Proof.RecognisePayload
/-!
# C78, C79: the signatures of payloads and relations
-/
namespace Verif.Props
open Verif Verif.Text Verif.Signature Verif.Regex Verif.Spec Verif.Spec.Regex Verif.Spec.Recognition Verif.Section
open Verif.Recognition

/-- `Request name (type)`, `Response status (type)` or `name Model (type)`. -/
def PayloadLine : PayloadKind → Bytes → Bytes → Bytes → Prop
  | .request => RequestLine
  | .response => ResponseLine
  | .model => ModelLine

/-- The line has the form of the payload.  After a request or a response there may be more white space of any kind. -/
def PayloadForm (k : PayloadKind) (line n m : Bytes) : Prop :=
  ∃ p r, line = p ++ r ∧ PayloadLine k p n m ∧ Blank r ∧ (k = .model → r = [])

theorem cstr_id {t : Bytes} (h : 0 ∉ t) : cstr t = t := (cstr_iff.mpr ⟨h, .inl rfl⟩).symm

theorem erase_prefix {m rest : Bytes} : erase (m ++ rest) m = rest := by
  unfold erase
  have : findSub m ([] ++ m ++ rest) = some ([] : Bytes).length :=
    findSub_eq (t := []) fun a b h hb => absurd (List.append_eq_nil_iff.mp h.symm).2 hb
  simp only [List.nil_append, List.length_nil] at this
  rw [this]
  simp

/-- The groups that hold the name and the media type. -/
def nameGroup : PayloadKind → Nat
  | .model => 2
  | _ => 1
def mediaGroup : PayloadKind → Nat
  | .response => 3
  | _ => 4

theorem parts_eq {k : PayloadKind} {line : Bytes} {g : List Bytes}
    (h : regexCapture line (payloadRegex k) 5 = some g) : payloadParts k line =
      if trim (erase line (g.getD 0 [])) = [] then ⟨trim (g.getD (nameGroup k) []), trim (g.getD (mediaGroup k) []), false⟩
      else ⟨[], [], true⟩ := by
  unfold payloadParts
  simp only [h]
  by_cases hb : trim (erase line (g.getD 0 [])) = []
  · simp only [hb, List.isEmpty_nil, Bool.not_true, Bool.false_eq_true, if_false, if_true]
    cases k <;> rfl
  · have : (trim (erase line (g.getD 0 []))).isEmpty = false := by
      cases h : trim (erase line (g.getD 0 [])) with
      | nil => exact absurd h hb
      | cons _ _ => rfl
    simp only [this, hb, Bool.not_false, if_true, if_false]

/-- The expression of a payload and its groups. -/
theorem payload_capture {k : PayloadKind} {line : Bytes} (h0 : 0 ∉ line) :
    (∃ m rest name media, line = m ++ rest ∧ PayloadLine k m name media ∧ (k = .model → rest = []) ∧
      (∀ m' rest' n' t', line = m' ++ rest' → PayloadLine k m' n' t' → (k = .model → rest' = []) → m'.length ≤ m.length) ∧
      payloadParts k line = if trim rest = [] then ⟨trim name, trim media, false⟩ else ⟨[], [], true⟩) ∨
    ((∀ m' rest' n' t', line = m' ++ rest' → PayloadLine k m' n' t' → ¬ (k = .model → rest' = [])) ∧
      payloadParts k line = {}) := by
  cases k with
  | request =>
    by_cases h : ∃ m rest, cstr line = m ++ rest ∧ Lang xRequest m
    · obtain ⟨g, m, rest, h1, h2, h3, h4, h5⟩ := regexCapture_prefix 5 c_request (by decide) n_request h
      rw [cstr_id h0] at h2 h4
      obtain ⟨n, t, h6, h7, h8⟩ := g_request h3
      refine .inl ⟨m, rest, n, t, h2, h6, nofun, fun m' rest' n' t' e1 e2 _ => h4 m' rest' e1 (L_request.mpr ⟨n', t', e2⟩), ?_⟩
      rw [parts_eq (k := .request) h1, h5 0 (by omega), if_pos rfl]
      conv => lhs; rw [h2, erase_prefix]
      show (if _ then PayloadParts.mk (trim (g.getD 1 [])) (trim (g.getD 4 [])) false else _) = _
      rw [(h5 1 (by omega)).trans (if_neg (by omega)), (h5 4 (by omega)).trans (if_neg (by omega))]
      rw [grp] at h7 h8; rw [h7, h8]
    · refine .inr ⟨fun m' rest' n' t' e1 e2 _ => h ⟨m', rest', by rw [cstr_id h0]; exact e1, L_request.mpr ⟨n', t', e2⟩⟩, ?_⟩
      unfold payloadParts
      rw [show payloadRegex .request = requestRegex from rfl, regexCapture_prefix_none 5 c_request h]
  | response =>
    by_cases h : ∃ m rest, cstr line = m ++ rest ∧ Lang xResponse m
    · obtain ⟨g, m, rest, h1, h2, h3, h4, h5⟩ := regexCapture_prefix 5 c_response (by decide) n_response h
      rw [cstr_id h0] at h2 h4
      obtain ⟨n, t, h6, h7, h8⟩ := g_response h3
      refine .inl ⟨m, rest, n, t, h2, h6, nofun, fun m' rest' n' t' e1 e2 _ => h4 m' rest' e1 (L_response.mpr ⟨n', t', e2⟩), ?_⟩
      rw [parts_eq (k := .response) h1, h5 0 (by omega), if_pos rfl]
      conv => lhs; rw [h2, erase_prefix]
      show (if _ then PayloadParts.mk (trim (g.getD 1 [])) (trim (g.getD 3 [])) false else _) = _
      rw [(h5 1 (by omega)).trans (if_neg (by omega)), (h5 3 (by omega)).trans (if_neg (by omega))]
      rw [grp] at h7 h8; rw [h7, h8]
    · refine .inr ⟨fun m' rest' n' t' e1 e2 _ => h ⟨m', rest', by rw [cstr_id h0]; exact e1, L_response.mpr ⟨n', t', e2⟩⟩, ?_⟩
      unfold payloadParts
      rw [show payloadRegex .response = responseRegex from rfl, regexCapture_prefix_none 5 c_response h]
  | model =>
    by_cases h : Lang xModel (cstr line)
    · obtain ⟨g, h1, h5⟩ := regexCapture_full 5 c_model (by decide) n_model h
      rw [cstr_id h0] at h h5
      obtain ⟨n, t, h6, h7, h8⟩ := g_model h
      refine .inl ⟨line, [], n, t, by simp, h6, fun _ => rfl, fun m' rest' n' t' e1 e2 e3 => ?_, ?_⟩
      · rw [e1]; simp
      · rw [parts_eq (k := .model) h1, h5 0 (by omega), if_pos rfl]
        have he : erase line line = [] := by
          have := erase_prefix (m := line) (rest := [])
          rwa [List.append_nil] at this
        rw [he]
        show (if _ then PayloadParts.mk (trim (g.getD 2 [])) (trim (g.getD 4 [])) false else _) = _
        rw [(h5 2 (by omega)).trans (if_neg (by omega)), (h5 4 (by omega)).trans (if_neg (by omega))]
        rw [grp] at h7 h8; rw [h7, h8]
    · refine .inr ⟨fun m' rest' n' t' e1 e2 e3 => ?_, ?_⟩
      · have := e3 rfl; subst this
        rw [List.append_nil] at e1; subst e1
        exact h (by rw [cstr_id h0]; exact L_model.mpr ⟨n', t', e2⟩)
      · unfold payloadParts
        rw [show payloadRegex .model = modelRegex from rfl, regexCapture_full_none 5 c_model h]

theorem payloadLine_extend {k : PayloadKind} {p r n m n' m' : Bytes} (h : PayloadLine k p n m)
    (h' : PayloadLine k (p ++ r) n' m') (hr : Blank r) (hk : k = .model → r = []) : trim n = trim n' ∧ m = m' := by
  cases k with
  | request => exact requestLine_extend h h' hr
  | response => exact responseLine_extend h h' hr
  | model => have := hk rfl; subst this; rw [List.append_nil] at h'; exact modelLine_unique h h'

/-- C78: from a first line of the form `Request name (type)`, `Response status (type)` or `name Model (type)` the payload gets
exactly the name or status and the media type, without white space around them, and nothing is reported. -/
theorem C78_parts (k : PayloadKind) (line n m name media : Bytes) (h0 : 0 ∉ line) (h : PayloadForm k line n m)
    (hn : Trimmed n name) (hm : Trimmed m media) : payloadParts k line = ⟨name, media, false⟩ := by
  obtain ⟨p, r, h1, h2, h3, h4⟩ := h
  rcases payload_capture (k := k) h0 with ⟨p', r', n', m', e1, e2, e3, e4, e5⟩ | ⟨e1, _⟩
  · have hl := e4 p r n m h1 h2 h4
    rw [h1] at e1
    obtain ⟨z, h5, h6⟩ : ∃ z, p' = p ++ z ∧ r = z ++ r' := by
      rcases List.append_eq_append_iff.mp e1 with ⟨z, h5, h6⟩ | ⟨z, h5, h6⟩
      · exact ⟨z, h5, h6⟩
      · rw [h5] at hl
        have : z = [] := by cases z with
          | nil => rfl
          | cons _ _ => simp at hl; omega
        subst this; exact ⟨[], by simpa using h5.symm, by simpa using h6.symm⟩
    have hz : Blank z := fun c hc => h3 c (by rw [h6]; exact List.mem_append_left _ hc)
    have hr' : Blank r' := fun c hc => h3 c (by rw [h6]; exact List.mem_append_right _ hc)
    subst h5
    obtain ⟨h7, h8⟩ := payloadLine_extend h2 e2 hz (fun hk => (List.append_eq_nil_iff.mp (h6 ▸ h4 hk)).1)
    rw [e5, if_pos (Mson.trim_blank.mpr hr'), ← h7, ← h8, trim_iff.mpr hn, trim_iff.mpr hm]
  · exact absurd h4 (e1 p r n m h1 h2)

/-- C78: a request or response is reported as malformed exactly if its first line starts with the word, but does not have the
form; a model never is. -/
theorem C78_malformed (k : PayloadKind) (line : Bytes) (h0 : 0 ∉ line) :
    (payloadParts k line).malformed = true ↔
      (match k with
        | .request => StartsWith (Word 'R' 'r' "equest") line
        | .response => StartsWith (Word 'R' 'r' "esponse") line
        | .model => False) ∧ ¬ ∃ n m, PayloadForm k line n m := by
  constructor
  · intro hm
    constructor
    · rcases payload_capture (k := k) h0 with ⟨p', r', n', m', e1, e2, e3, e4, e5⟩ | ⟨_, e5⟩
      · cases k with
        | request =>
          obtain ⟨a, w, q, b, rfl, ha, hw, _⟩ := e2
          exact ⟨a, w, n' ++ q ++ b ++ r', by rw [e1]; simp, ha, hw⟩
        | response =>
          obtain ⟨a, w, q, b, rfl, ha, hw, _⟩ := e2
          exact ⟨a, w, n' ++ q ++ b ++ r', by rw [e1]; simp, ha, hw⟩
        | model =>
          rw [e5, e3 rfl, if_pos (by decide)] at hm
          simp at hm
      · rw [e5] at hm; simp at hm
    · rintro ⟨n, m, hf⟩
      rw [C78_parts k line n m _ _ h0 hf (trim_spec n) (trim_spec m)] at hm
      simp at hm
  · rintro ⟨hs, hf⟩
    rcases payload_capture (k := k) h0 with ⟨p', r', n', m', e1, e2, e3, e4, e5⟩ | ⟨e1, _⟩
    · rw [e5, if_neg]
      intro ht
      exact hf ⟨n', m', p', r', e1, e2, Mson.trim_blank.mp ht, e3⟩
    · exfalso
      cases k with
      | request =>
        obtain ⟨a, w, r, rfl, ha, hw⟩ := hs
        exact e1 (a ++ w) r [] [] rfl ⟨a, w, [], [], by simp, ha, hw, .inl rfl, .inl ⟨rfl, rfl⟩, blanks_nil⟩ nofun
      | response =>
        obtain ⟨a, w, r, rfl, ha, hw⟩ := hs
        exact e1 (a ++ w) r [] [] rfl ⟨a, w, [], [], by simp, ha, hw, by simp, .inl ⟨rfl, rfl⟩, blanks_nil⟩ nofun
      | model => exact hs

/-- C78: whatever a payload gets its name or media type from has the form; in all other cases it gets neither. -/
theorem C78_only (k : PayloadKind) (line : Bytes) (h0 : 0 ∉ line)
    (h : (payloadParts k line).name ≠ [] ∨ (payloadParts k line).media ≠ []) :
    ∃ n m, PayloadForm k line n m ∧ Trimmed n (payloadParts k line).name ∧ Trimmed m (payloadParts k line).media := by
  rcases payload_capture (k := k) h0 with ⟨p', r', n', m', e1, e2, e3, e4, e5⟩ | ⟨_, e5⟩
  · by_cases ht : trim r' = []
    · rw [e5, if_pos ht]
      exact ⟨n', m', ⟨p', r', e1, e2, Mson.trim_blank.mp ht, e3⟩, trim_spec n', trim_spec m'⟩
    · rw [e5, if_neg ht] at h; simp at h
  · rw [e5] at h; simp at h

/-- C78: every response has a status: the one that is written or, with a warning, 200; other payloads never get one of their
own; what follows the first line is kept. -/
theorem C78_status (k : PayloadKind) (text line rest : Bytes) (hf : getFirstLine text = (line, rest)) :
    ((payloadHead k text).assumed = true ↔ k = .response ∧ (payloadParts k line).name = []) ∧
    (payloadHead k text).parts.name =
      (if k = .response ∧ (payloadParts k line).name = [] then str "200" else (payloadParts k line).name) ∧
    (payloadHead k text).parts.media = (payloadParts k line).media ∧
    (payloadHead k text).parts.malformed = (payloadParts k line).malformed ∧
    (payloadHead k text).rest = rest := by
  unfold payloadHead
  simp only [hf]
  cases hp : (payloadParts k line).name with
  | nil => cases k <;> simp [hp]
  | cons c t => cases k <;> simp [hp]

/-- C78: a response is never without a status, so that the checks of C47 always have one to read. -/
theorem C78_response_named (text : Bytes) : (payloadHead .response text).parts.name ≠ [] := by
  unfold payloadHead
  simp only []
  cases hp : (payloadParts .response (getFirstLine text).1).name with
  | nil => simp [hp]; decide
  | cons c t => simp [hp]

/-! ## Cases -/

example : payloadParts .response (str "Response 200 (a/b)") = ⟨str "200", str "a/b", false⟩ := by decide +kernel
example : PayloadForm .request (str "Request A (a/b)") (str " A ") (str "a/b") :=
  ⟨str "Request A (a/b)", [], by decide, ⟨[], str "Request", str "(a/b)", [], by decide, blanks_nil, .inl (by decide),
    .inr ⟨32, str "A ", by decide, .inl rfl, by decide, by decide⟩, .inr ⟨[], by decide, blanks_nil, by decide⟩, blanks_nil⟩,
    by simp [Blank], fun _ => rfl⟩
example : (payloadParts .request (str "Requests")).malformed = true := by decide +kernel

/-- C78 is false of lines that begin with white space other than blanks, which recognition ignores: a vertical tab in front makes
the whole signature disappear without a word. -/
theorem C78_silent_refuted : ∃ line : Bytes, payloadKind (trim line) = some .request ∧
    payloadParts .request line = {} ∧ payloadParts .request (trim line) = ⟨str "A", [], false⟩ :=
  ⟨11 :: str "Request A", by decide +kernel, by decide +kernel, by decide +kernel⟩

/-- C78: a backslash in a media type, as in a quoted parameter, makes the signature malformed. -/
theorem C78_backslash_refuted : ∃ line : Bytes, line = str "Request (a;b=\"\\\"\")" ∧
    payloadParts .request line = ⟨[], [], true⟩ := ⟨_, rfl, by decide +kernel⟩

/-! ## C79: relations and relative URIs -/

theorem identifier_white {i : Bytes} (h : i = [] ∨ Identifier i) : ∀ c ∈ i, ¬ White c := by
  have low : ∀ c : UInt8, asc 'a' ≤ c ∧ c ≤ asc 'z' ∨ (asc '0' ≤ c ∧ c ≤ asc '9') ∨ c = asc '.' ∨ c = asc '-' → ¬ White c :=
    forallU8 (P := fun c => asc 'a' ≤ c ∧ c ≤ asc 'z' ∨ (asc '0' ≤ c ∧ c ≤ asc '9') ∨ c = asc '.' ∨ c = asc '-' → ¬ White c)
      (by unfold White; decide +kernel)
  rcases h with rfl | ⟨c, t, rfl, hc, ht⟩
  · simp
  · intro d hd
    rcases List.mem_cons.mp hd with rfl | hd
    · exact low _ (.inl hc)
    · exact low _ (ht d hd)

theorem identifier_trim {i : Bytes} (h : i = [] ∨ Identifier i) : trim i = i :=
  trim_bare ⟨fun c hc => identifier_white h c (List.mem_of_head? hc), fun c hc => identifier_white h c (List.mem_of_getLast? hc)⟩

theorem relationLine_unique {s r r' : Bytes} (h : RelationLine s r) (h' : RelationLine s r') : r = r' := by
  obtain ⟨a, w, b, rfl, ha, hw, hb⟩ := h
  obtain ⟨a', w', b', he, ha', hw', hb'⟩ := h'
  have he := word_cancel (x := b ++ asc ':' :: r) (x' := b' ++ asc ':' :: r') ha ha' hw hw' (by decide) (by simpa using he)
  exact (append_cons_inj he (blanks_no hb (by decide) (by decide)) (blanks_no hb' (by decide) (by decide))).2

/-- C79: the identifier of a relation is what follows the colon, without blanks around it, provided that it is empty or made of
lower case letters, digits, `.` and `-` and begins with a letter; in all other cases it is reported and the relation stays
empty. -/
theorem C79_identifier (text : Bytes) (i : Bytes) :
    relationIdentifier text = some i ↔ ∃ line s b c, FirstLine text line ∧ Seen line s ∧ RelationLine s (b ++ i ++ c) ∧
      Blanks b ∧ Blanks c ∧ (i = [] ∨ Identifier i) := by
  have red : (∃ line s b c, FirstLine text line ∧ Seen line s ∧ RelationLine s (b ++ i ++ c) ∧
      Blanks b ∧ Blanks c ∧ (i = [] ∨ Identifier i)) ↔ ∃ b c, RelationLine (cstr (trim (getFirstLine text).1)) (b ++ i ++ c) ∧
      Blanks b ∧ Blanks c ∧ (i = [] ∨ Identifier i) := by
    constructor
    · rintro ⟨line, s, b, c, h1, h2, h3⟩
      rw [firstLine_iff] at h1; rw [seen_iff] at h2; subst h1; subst h2
      exact ⟨b, c, h3⟩
    · rintro ⟨b, c, h⟩
      exact ⟨_, _, b, c, firstLine_iff.mpr rfl, seen_iff.mpr rfl, h⟩
  rw [red]
  unfold relationIdentifier
  by_cases h : Lang xRelationIdentifier (cstr (trim (getFirstLine text).1))
  · obtain ⟨g, h1, h2⟩ := regexCapture_full 3 c_relationIdentifier (by decide) n_relationIdentifier h
    obtain ⟨b, j, c, h3, hb, hj, hc, h4⟩ := g_relationIdentifier h
    rw [grp] at h4
    simp only [h1, (h2 1 (by omega)).trans (if_neg (by omega)), h4, identifier_trim hj, Option.some.injEq]
    constructor
    · rintro rfl; exact ⟨b, c, h3, hb, hc, hj⟩
    · rintro ⟨b', c', h5, hb', hc', hi⟩
      have := congrArg trim (relationLine_unique h3 h5)
      rwa [trim_around hb hc, trim_around hb' hc', identifier_trim hj, identifier_trim hi] at this
  · rw [regexCapture_full_none 3 c_relationIdentifier h]
    simp only [reduceCtorEq, false_iff]
    rintro ⟨b, c, h5, hb, hc, hi⟩
    apply h
    rw [L_relationIdentifier]
    exact ⟨b, i, c, h5, hb, hi, hc⟩

/-- C79: a header is reported as one with a relative URI exactly if it is `name [METHOD text]` where the text has no slash. -/
theorem C79_relative (text : Bytes) (h0 : 0 ∉ text) : typo text = true ↔ RelativeLine text := by
  rw [typo, m_relative, cstr_id h0]

example : relationIdentifier (str "Relation: self") = some (str "self") := by decide +kernel
example : relationIdentifier (str "Relation: Self") = none := by decide +kernel
example : typo (str "A [GET a]") = true := by decide +kernel

end Verif.Props
