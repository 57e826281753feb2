import Verif.Proof.PayloadSections

/-! # A whole payload -/

namespace Verif.Payload
open Verif Verif.Text Verif.Regex Verif.Section Verif.Recognition Verif.Spec Verif.Spec.Recognition Verif.Spec.Payload Verif.Props
open Verif.References (Header)
open Verif.Spec.MsonParser (Follows)

variable {w : World} {context : SectionType} {outer : List SectionType}

/-! ## The first line -/

theorem line_eq {k : PayloadKind} (sig : Node) (hk : kindOf context = some k) : ∀ q, q = payloadParts k (getFirstLine sig.text).1 →
    payloadSignatureLine context sig {} =
      ⟨{ name := if q.name = [] ∧ k = .response then str "200" else q.name
         headers := if q.media = [] then [] else [(str "Content-Type", q.media)] },
        (if q.malformed then [.malformed context] else []) ++ if q.name = [] ∧ k = .response then [.missingStatus] else []⟩ := by
  rintro q rfl
  have hh : payloadHead k sig.text = if (payloadParts k (getFirstLine sig.text).1).name = [] ∧ k = .response
      then ⟨{ payloadParts k (getFirstLine sig.text).1 with name := str "200" }, true, (getFirstLine sig.text).2⟩
      else ⟨payloadParts k (getFirstLine sig.text).1, false, (getFirstLine sig.text).2⟩ := by
    unfold payloadHead
    simp only [List.isEmpty_iff, Bool.and_eq_true, decide_eq_true_eq]
  unfold payloadSignatureLine headOf
  rw [hk]
  simp only [hh]
  split
  · simp only [List.isEmpty_iff, List.nil_append, if_true]; rfl
  · simp only [List.isEmpty_iff, List.nil_append]; rfl

theorem headLine_iff {k : PayloadKind} {sig : Node} (hk : kindOf context = some k) {p : Payload} {a : List Warning} {rest : Bytes} :
    HeadLine k context sig.text p a rest ↔ payloadSignatureLine context sig {} = ⟨p, a⟩ ∧ rest = (getFirstLine sig.text).2 := by
  constructor
  · intro h
    cases h with
    | @mk line _ name hs a b h1 h2 h3 h4 h5 =>
      rw [firstLine_iff] at h1
      rw [remainder_iff] at h2
      subst h1 h2
      refine ⟨?_, rfl⟩
      rw [line_eq sig hk _ rfl]
      generalize payloadParts k (getFirstLine sig.text).1 = q at *
      have ha : a = if q.malformed then [.malformed context] else [] := by
        rcases h5 with ⟨h, rfl⟩ | ⟨h, rfl⟩ <;> simp [h]
      have hh : hs = if q.media = [] then [] else [(str "Content-Type", q.media)] := by
        rcases h4 with ⟨h, rfl⟩ | ⟨h, rfl⟩ <;> simp [h]
      rcases h3 with ⟨h', h, rfl, rfl⟩ | ⟨h, rfl, rfl⟩
      · simp only [if_pos (And.intro h h'), ← ha, ← hh]
      · have h' : ¬ (q.name = [] ∧ k = .response) := fun c => h ⟨c.2, c.1⟩
        simp only [if_neg h', ← ha, ← hh]
  · rintro ⟨h, rfl⟩
    rw [line_eq sig hk _ rfl] at h
    cases h
    refine .mk (firstLine_iff.mpr rfl) (remainder_iff.mpr rfl) ?_ ?_ ?_
    · by_cases hc : (payloadParts k (getFirstLine sig.text).1).name = [] ∧ k = .response
      · exact .inl ⟨hc.2, hc.1, if_pos hc, if_pos hc⟩
      · exact .inr ⟨fun c => hc ⟨c.2, c.1⟩, if_neg hc, if_neg hc⟩
    · by_cases hc : (payloadParts k (getFirstLine sig.text).1).media = []
      · exact .inl ⟨hc, if_pos hc⟩
      · exact .inr ⟨hc, if_neg hc⟩
    · cases (payloadParts k (getFirstLine sig.text).1).malformed <;> simp

/-! ## Descriptions -/

theorem describes_iff {ns : List Node} : ∀ {p : Payload} {vs : List Warning} {d : Data},
    steps (fun n d => payloadDescription w n ⟨context :: outer, d⟩) ns ⟨p, vs⟩ = .ok d ↔
      ∃ e, Describes w p.description ns e ∧ d = ⟨{ p with description := e }, vs⟩ := by
  have step : ∀ {n : Node} {p : Payload} {vs : List Warning} {d : Data}, payloadDescription w n ⟨context :: outer, ⟨p, vs⟩⟩ = .ok d ↔
      ∃ s d', Trimmed (ByteBuffer.mapBytesRangeSet n.sourceMap w.source) s ∧ Follows p.description s d' ∧
        d = ⟨{ p with description := d' }, vs⟩ := by
    intro n p vs d
    unfold payloadDescription
    simp only
    by_cases he : p.description = []
    · rw [if_pos (by simpa using he)]
      simp only [List.nil_append]
      constructor
      · intro h; cases h
        exact ⟨_, _, trim_iff.mp rfl, by rw [he]; exact .first, rfl⟩
      · rintro ⟨s, d', h1, h2, rfl⟩
        rw [he] at h2
        cases h2 with
        | first => rw [← trim_iff] at h1; rw [sourceOf, h1]
        | next h => exact absurd rfl h
    · rw [if_neg (by simpa using he)]
      constructor
      · intro h
        cases ht : twoNewLines p.description with
        | none => rw [ht] at h; cases h
        | some r =>
          rw [ht] at h
          cases h
          have hne : ¬ (p.description = [] ∨ p.description = [asc '\n']) := by rw [← twoNewLines_none, ht]; simp
          rw [not_or] at hne
          refine ⟨_, _, trim_iff.mp rfl, .next hne.1 hne.2, ?_⟩
          rw [twoNewLines_closed ht]; rfl
      · rintro ⟨s, d', h1, h2, rfl⟩
        rw [← trim_iff] at h1
        generalize hd : p.description = x at h2 he
        cases h2 with
        | first => exact absurd rfl he
        | next h h' =>
          cases ht : twoNewLines x with
          | none => rcases twoNewLines_none.mp ht with h | h <;> contradiction
          | some r => simp only [sourceOf]; rw [h1, twoNewLines_closed ht]
  induction ns with
  | nil =>
    intro p vs d
    rw [steps]
    constructor
    · intro h; cases h; exact ⟨_, .nil, rfl⟩
    · rintro ⟨e, h, rfl⟩; cases h; rfl
  | cons n ns ih =>
    intro p vs d
    rw [steps]
    constructor
    · intro h
      split at h
      · cases h
      · rename_i d₁ h1
        obtain ⟨s, d', h2, h3, rfl⟩ := step.mp h1
        obtain ⟨e, h4, rfl⟩ := ih.mp h
        exact ⟨e, .cons h2 h3 h4, rfl⟩
    · rintro ⟨e, h, rfl⟩
      cases h with
      | cons h2 h3 h4 =>
        rw [step.mpr ⟨_, _, h2, h3, rfl⟩]
        simp only
        rw [ih.mpr ⟨_, h4, rfl⟩]

/-! ## References -/

theorem filled_uniq {own m p q : References.Payload} (hp : References.Filled own m p) (hq : References.Filled own m q)
    (h1 : p.refId = q.refId) (h2 : p.refState = q.refState) : p = q := by
  obtain ⟨a1, a2, a3, a4, a5, a6, a7⟩ := hp
  obtain ⟨b1, b2, b3, b4, b5, b6, b7⟩ := hq
  cases p; cases q
  simp only at *
  subst a1 a2 a3 a4 a5 a6 a7 h1 h2
  simp only [References.Payload.mk.injEq]
  exact ⟨b1.symm, b3.symm, b4.symm, b7.symm, b2.symm, b5.symm, b6.symm, trivial, trivial⟩

theorem refers_iff {symbol : Bytes} {p q : Payload} {vs ws : List Warning} :
    Refers w context symbol p q ws ↔ refer w context symbol ⟨p, vs⟩ = ⟨q, vs ++ ws⟩ := by
  have any : ∀ m : References.Payload, (m.headers.any fun h => h.1 == References.contentType) = true ↔ ∃ h ∈ m.headers, h.1 = str "Content-Type" := by
    intro m
    rw [List.any_eq_true]
    simp [References.contentType]
  unfold refer References.refer
  constructor
  · intro h
    cases h with
    | unknown h => simp [h]
    | found h1 h2 h3 h4 h5 =>
      simp only [h1]
      congr 1
      · exact filled_uniq (References.assign_filled _ _ _ _) h2 h3.symm h4.symm
      · rw [if_neg]
        rw [Bool.and_eq_true, any]
        rintro ⟨h, x, hx, hc⟩
        rcases h5 with h5 | h5
        · simp [h5] at h
        · exact h5 x hx hc
    | ignoring h1 h2 h3 h4 h5 h6 =>
      simp only [h1]
      congr 1
      · exact filled_uniq (References.assign_filled _ _ _ _) h2 h3.symm h4.symm
      · rw [if_pos]
        rw [Bool.and_eq_true, any]
        exact ⟨by simpa using h5, h6⟩
  · intro h
    cases hf : w.table.find symbol with
    | none =>
      simp only [hf, List.append_nil, Data.mk.injEq] at h
      obtain ⟨rfl, h⟩ := h
      have : ws = [] := by simpa using h
      subst this
      exact .unknown hf
    | some m =>
      simp only [hf, Data.mk.injEq, List.append_cancel_left_eq] at h
      obtain ⟨rfl, rfl⟩ := h
      split
      · rename_i hc
        rw [Bool.and_eq_true, any] at hc
        exact .ignoring hf (References.assign_filled _ _ _ _) rfl rfl (by simpa using hc.1) hc.2
      · rename_i hc
        rw [Bool.and_eq_true, any] at hc
        refine .found hf (References.assign_filled _ _ _ _) rfl rfl ?_
        by_cases he : p.headers = []
        · exact .inl he
        · exact .inr fun x hx h => hc ⟨by simpa using he, x, hx, h⟩

theorem refers_total (w : World) (context : SectionType) (symbol : Bytes) (p : Payload) : ∃ q ws, Refers w context symbol p q ws :=
  ⟨_, _, (refers_iff (vs := [])).mpr rfl⟩

/-! ## Payloads without sections -/

theorem under_iff {sig : Node} {rest : Bytes} {p : Payload} {a : List Warning} {d : Data} (hb : p.body = []) (ht : isAbbreviated context = true)
    (hs : payloadSignatureLine context sig {} = ⟨p, a⟩) (hr : rest = (getFirstLine sig.text).2) :
    payloadSignature w sig ⟨context :: outer, {}⟩ = .ok d ↔ ∃ q b, Under w context rest p q b ∧ d = ⟨q, a ++ b⟩ := by
  unfold payloadSignature
  have htop : (⟨context :: outer, {}⟩ : PD Data).top = context := rfl
  simp only [htop, hs, headOf_rest, ← hr, ht, Bool.not_true, Bool.false_eq_true, if_false]
  by_cases he : rest = []
  · rw [if_pos (by simpa using he)]
    constructor
    · intro h; cases h; exact ⟨_, _, .nothing he, by simp⟩
    · rintro ⟨q, b, h, rfl⟩
      cases h with
      | nothing => simp
      | reference h => exact absurd he h
      | text h => exact absurd he h
  · rw [if_neg (by simpa using he)]
    cases hm : References.modelReference rest with
    | some symbol =>
      simp only
      constructor
      · intro h
        cases h
        obtain ⟨q, b, h⟩ := refers_total w context symbol p
        exact ⟨q, b, .reference he (reference_iff.mp hm) h, refers_iff.mp h⟩
      · rintro ⟨q, b, h, rfl⟩
        cases h with
        | nothing h => exact absurd h he
        | reference _ h1 h2 =>
          rw [← reference_iff, hm] at h1
          cases h1
          rw [refers_iff.mp h2]
        | text _ h => exact absurd (reference_iff.mp hm) (h _)
    | none =>
      simp only [hb, List.nil_append]
      rw [lines_eq (remainder_iff.mpr hr), closed_lines he]
      simp only
      have hc : (signatureContent .body context sig).2 = [.multiline .body (codeBlockLevel context)] := by
        unfold signatureContent
        rw [← hr, if_neg (by simpa using he)]
      constructor
      · intro h
        cases h
        exact ⟨_, _, .text he (no_reference_iff.mpr hm) (level_iff.mpr rfl), by rw [hc]⟩
      · rintro ⟨q, b, h, rfl⟩
        cases h with
        | nothing h => exact absurd h he
        | reference _ h1 _ => exact absurd h1 (no_reference_iff.mpr hm _)
        | text _ _ h => rw [level_iff] at h; rw [hc, h]

theorem full_signature {sig : Node} {rest : Bytes} {p : Payload} {a : List Warning} (hb : p.description = []) (ht : isAbbreviated context = false)
    (hs : payloadSignatureLine context sig {} = ⟨p, a⟩) (hr : rest = (getFirstLine sig.text).2) :
    payloadSignature w sig ⟨context :: outer, {}⟩ = .ok ⟨{ p with description := rest }, a⟩ := by
  unfold payloadSignature
  have htop : (⟨context :: outer, {}⟩ : PD Data).top = context := rfl
  simp only [htop, hs, headOf_rest, ← hr, ht, Bool.not_false, if_true]
  split
  · rename_i h
    have : rest = [] := by simpa using h
    rw [this, ← hb]
  · rfl

theorem bodyBlocks_iff {ns : List Node} : ∀ {p : Payload} {vs : List Warning} {d : Data},
    steps (fun n d => payloadContent w n ⟨context :: outer, d⟩) ns ⟨p, vs⟩ = .ok d ↔
      ∃ q ws, BodyBlocks w context p ns q ws ∧ d = ⟨q, vs ++ ws⟩ := by
  have add : ∀ {n : Node} {p : Payload} {vs a : List Warning}, Reports .body context n a →
      addContent w context n ⟨p, vs⟩ = ⟨{ p with body := p.body ++ said w n }, vs ++ a⟩ := by
    intro n p vs a h
    rw [reports_iff (w := w)] at h
    subst h
    unfold addContent
    simp only [said_eq]
  induction ns with
  | nil =>
    intro p vs d
    rw [steps]
    constructor
    · intro h; cases h; exact ⟨_, _, .done, by simp⟩
    · rintro ⟨q, ws, h, rfl⟩; cases h; simp
  | cons n ns ih =>
    intro p vs d
    rw [steps]
    have htop : (⟨context :: outer, ⟨p, vs⟩⟩ : PD Data).top = context := rfl
    generalize steps (fun n d => payloadContent w n ⟨context :: outer, d⟩) ns = F at ih ⊢
    simp only [payloadContent, htop]
    by_cases hid : p.refId = []
    · rw [if_neg (by simp [hid])]
      by_cases hc : p.body ≠ [] ∨ n.kind ≠ .paragraph
      · rw [if_pos (by simpa using hc)]
        simp only
        have hr := (reports_iff (w := w) (context := .body) (parent := context) (n := n)).mpr rfl
        rw [add hr, ih]
        constructor
        · rintro ⟨q, ws, h, rfl⟩
          exact ⟨_, _, .text hid (by rcases hc with h | h <;> simp [h]) hr h, by simp [List.append_assoc]⟩
        · rintro ⟨q, ws, h, rfl⟩
          cases h with
          | after h => exact absurd hid h
          | reference _ h1 h2 => rcases hc with h | h <;> contradiction
          | text _ _ h1 h2 =>
            rw [reports_iff (w := w)] at h1
            subst h1
            exact ⟨_, _, h2, by simp [List.append_assoc]⟩
      · rw [if_neg (by simpa using hc)]
        rw [not_or, Decidable.not_not, Decidable.not_not] at hc
        cases hm : References.modelReference n.text with
        | some symbol =>
          simp only
          obtain ⟨p₁, a, hf⟩ := refers_total w context symbol p
          rw [refers_iff.mp hf, ih]
          constructor
          · rintro ⟨q, ws, h, rfl⟩
            exact ⟨_, _, .reference hid hc.1 hc.2 (reference_iff.mp hm) hf h, by simp [List.append_assoc]⟩
          · rintro ⟨q, ws, h, rfl⟩
            cases h with
            | after h => exact absurd hid h
            | reference _ _ _ h1 h2 h3 =>
              rw [← reference_iff, hm] at h1
              cases h1
              have e1 := (refers_iff (vs := vs)).mp hf
              have e2 := (refers_iff (vs := vs)).mp h2
              rw [e1] at e2
              simp only [Data.mk.injEq, List.append_cancel_left_eq] at e2
              obtain ⟨rfl, rfl⟩ := e2
              exact ⟨_, _, h3, by simp [List.append_assoc]⟩
            | text _ h1 _ _ =>
              rcases h1 with h | h | h
              · exact absurd hc.1 h
              · exact absurd hc.2 h
              · exact absurd (reference_iff.mp hm) (h _)
        | none =>
          simp only
          have hr := (reports_iff (w := w) (context := .body) (parent := context) (n := n)).mpr rfl
          rw [add hr, ih]
          constructor
          · rintro ⟨q, ws, h, rfl⟩
            exact ⟨_, _, .text hid (.inr (.inr (no_reference_iff.mpr hm))) hr h, by simp [List.append_assoc]⟩
          · rintro ⟨q, ws, h, rfl⟩
            cases h with
            | after h => exact absurd hid h
            | reference _ _ _ h1 => exact absurd h1 (no_reference_iff.mpr hm _)
            | text _ _ h1 h2 =>
              rw [reports_iff (w := w)] at h1
              subst h1
              exact ⟨_, _, h2, by simp [List.append_assoc]⟩
    · rw [if_pos (by simpa using hid)]
      simp only [Data.warn]
      rw [ih]
      constructor
      · rintro ⟨q, ws, h, rfl⟩
        exact ⟨_, _, .after hid h, by simp⟩
      · rintro ⟨q, ws, h, rfl⟩
        cases h with
        | after _ h => exact ⟨_, _, h, by simp⟩
        | reference h => exact absurd h hid
        | text h => exact absurd h hid

/-! ## The end -/

theorem checked_iff {k : PayloadKind} {p : Payload} {vs c : List Warning} (hk : kindOf context = some k) :
    Checked k p c ↔ (payloadFinalize ⟨context :: outer, ⟨p, vs⟩⟩).data = ⟨p, vs ++ c⟩ := by
  have htop : (⟨context :: outer, ⟨p, vs⟩⟩ : PD Data).top = context := rfl
  have req : Checked .request p c ↔ c = checkRequest p := by
    have cond : ∀ {length encoding : Bytes}, HeaderValue p.headers (str "Content-Length") length →
      HeaderValue p.headers (str "Transfer-Encoding") encoding →
      checkRequest p = if p.body = [] ∧ p.attributes = [] ∧ p.refState ≠ .pending ∧ (p.headers = [] ∧ p.parameters = [] ∨ length ≠ [] ∨ encoding ≠ [])
        then [.emptyBody length encoding] else [] := by
      intro length encoding h1 h2
      rw [headerValue_iff] at h1 h2
      unfold checkRequest
      simp only [h1, h2, List.isEmpty_iff, Bool.and_eq_true, decide_eq_true_eq, Bool.or_eq_true, Bool.not_eq_true']
      by_cases g1 : (p.body = [] ∧ p.attributes = []) ∧ p.refState ≠ .pending
      · rw [if_pos g1]
        obtain ⟨⟨g1, g2⟩, g3⟩ := g1
        simp only [g1, g2, g3, true_and, ne_eq, not_false_eq_true]
        by_cases g4 : p.headers = [] ∧ p.parameters = []
        · simp [g4]
        · simp only [if_neg g4, eq_false g4, false_or]
          cases length <;> cases encoding <;> simp
      · rw [if_neg g1, if_neg]
        rintro ⟨a, b, c, _⟩
        exact g1 ⟨⟨a, b⟩, c⟩
    constructor
    · intro h
      cases h with
      | empty _ h1 h2 h3 h4 h5 h6 => rw [cond h1 h2, if_pos ⟨h3, h4, h5, h6⟩]
      | request _ h1 h2 h3 => rw [cond h1 h2, if_neg h3]
      | response h => cases h
      | fine h => cases h
      | model h => cases h
    · rintro rfl
      have h1 := headerValue_iff.mpr (rfl : lastHeader (str "Content-Length") p.headers = _)
      have h2 := headerValue_iff.mpr (rfl : lastHeader (str "Transfer-Encoding") p.headers = _)
      rw [cond h1 h2]
      split
      · rename_i h
        exact .empty rfl h1 h2 h.1 h.2.1 h.2.2.1 h.2.2.2
      · exact .request rfl h1 h2 (by assumption)
  have res : Checked .response p c ↔ c = checkResponse p := by
    unfold checkResponse
    constructor
    · intro h
      cases h with
      | empty h => cases h
      | request h => cases h
      | response _ h => simp [h]
      | fine _ h => simp [h]
      | model h => cases h
    · rintro rfl
      split
      · exact .response rfl (by assumption)
      · exact .fine rfl (by assumption)
  have mod : Checked .model p c ↔ c = [] := by
    constructor
    · intro h
      cases h with
      | empty h => cases h
      | request h => cases h
      | response h => cases h
      | fine h => cases h
      | model => rfl
    · rintro rfl; exact .model rfl
  unfold payloadFinalize
  rw [htop]
  simp only [PD.set, Data.warn, Data.mk.injEq, true_and, List.append_cancel_left_eq]
  cases k with
  | request => rw [req, eq_comm]; cases context <;> first | (cases hk; done) | exact Iff.rfl
  | response => rw [res, eq_comm]; cases context <;> first | (cases hk; done) | exact Iff.rfl
  | model => rw [mod, eq_comm]; cases context <;> first | (cases hk; done) | exact Iff.rfl

theorem itemResult_iff {σ : Type} {sg : Node → σ → Except Stop σ} {isD isC : Node → Bool} {ds cs : Node → σ → Except Stop σ}
    {f : Node → SectionType → σ → Except Stop σ} {ty : Node → SectionType} {fin : σ → σ} {sig : Node} {blocks : List Node} {d e : σ} :
    itemResult sg isD ds isC cs f ty fin sig blocks d = .ok e ↔ ∃ d₁ d₂ d₃ d₄, sg sig d = .ok d₁ ∧ steps ds (blocks.takeWhile isD) d₁ = .ok d₂ ∧
      steps cs ((blocks.dropWhile isD).takeWhile isC) d₂ = .ok d₃ ∧
      loop f ty ((blocks.dropWhile isD).dropWhile isC) .undefined d₃ = .ok d₄ ∧ fin d₄ = e := by
  unfold itemResult
  cases sg sig d with
  | error => simp
  | ok d₁ =>
    simp only [Except.ok.injEq, exists_and_left, ↓existsAndEq, true_and]
    cases steps ds (blocks.takeWhile isD) d₁ with
    | error => simp
    | ok d₂ =>
      simp only [Except.ok.injEq, ↓existsAndEq, true_and]
      cases steps cs ((blocks.dropWhile isD).takeWhile isC) d₂ with
      | error => simp
      | ok d₃ =>
        simp only [Except.ok.injEq, ↓existsAndEq, true_and]
        cases loop f ty ((blocks.dropWhile isD).dropWhile isC) .undefined d₃ with
        | error => simp
        | ok d₄ => simp

theorem part_until {blocks pre post : List Node} :
    Until PayloadPart blocks pre post ↔ pre = blocks.takeWhile (fun n => decide (payloadNested n = .undefined)) ∧
      post = blocks.dropWhile (fun n => decide (payloadNested n = .undefined)) :=
  until_iff fun n => by rw [decide_eq_true_eq, ← payloadNested_iff, ne_eq, Decidable.not_not]

theorem head_empty {k : PayloadKind} {text rest : Bytes} {p : Payload} {a : List Warning} (h : HeadLine k context text p a rest) :
    p.description = [] ∧ p.body = [] := by
  cases h; exact ⟨rfl, rfl⟩

theorem read_iff {sig : Node} {blocks : List Node} {d : Data} (hc : ∃ k b, (k, b, context) ∈ payloadTypes) :
    payloadResult w context outer sig blocks = .ok d ↔ ∃ p ws, PayloadRead w context sig blocks p ws ∧ d = ⟨p, ws⟩ := by
  obtain ⟨k, b, hc⟩ := hc
  obtain ⟨hk, ha⟩ := kind_types hc
  have uniq : ∀ {k' b'}, (k', b', context) ∈ payloadTypes → k' = k ∧ b' = b := by
    intro k' b' h
    obtain ⟨hk', ha'⟩ := kind_types h
    rw [hk] at hk'
    rw [ha] at ha'
    cases hk'
    refine ⟨rfl, ?_⟩
    cases b <;> cases b' <;> simp at ha' ⊢
  unfold payloadResult
  rw [itemResult_iff]
  cases b with
  | true =>
    have ha : isAbbreviated context = false := ha
    have e1 : (fun n => !isAbbreviated context && decide (payloadNested n = .undefined)) = fun n => decide (payloadNested n = .undefined) := by
      funext n; rw [ha]; rfl
    have e2 : (fun n => isAbbreviated context && plain n) = fun _ => false := by funext n; rw [ha]; rfl
    simp only [e1, e2, steps_nil_of_false, dropWhile_false]
    constructor
    · rintro ⟨d₁, d₂, d₃, d₄, h1, h2, h3, h4, rfl⟩
      cases h3
      obtain ⟨⟨p, a⟩, hpa⟩ : ∃ d, payloadSignatureLine context sig {} = d := ⟨_, rfl⟩
      have hl := (headLine_iff hk).mpr ⟨hpa, rfl⟩
      have hd := (head_empty hl).1
      rw [full_signature hd ha hpa rfl] at h1
      cases h1
      obtain ⟨e, h5, rfl⟩ := describes_iff.mp h2
      obtain ⟨q, ws, h6, rfl⟩ := (sections_iff (b := false) (fun _ => by decide)).mp h4
      have hch := (checked_iff (outer := outer) (vs := a ++ ws) (c := _) (p := q) hk).mpr rfl
      refine ⟨q, _, .full hc hl (part_until.mpr ⟨rfl, rfl⟩) h5 h6 hch, rfl⟩
    · rintro ⟨p, ws, h, rfl⟩
      cases h with
      | full h1 h2 h3 h4 h5 h6 =>
        obtain ⟨rfl, _⟩ := uniq h1
        obtain ⟨rfl, rfl⟩ := part_until.mp h3
        have hd := (head_empty h2).1
        obtain ⟨hl, rfl⟩ := (headLine_iff hk).mp h2
        refine ⟨_, _, _, _, full_signature hd ha hl rfl, describes_iff.mpr ⟨_, h4, rfl⟩, rfl,
          (sections_iff (b := false) (fun _ => by decide)).mpr ⟨_, _, h5, rfl⟩, (checked_iff hk).mp h6⟩
      | short h1 => cases (uniq h1).2
  | false =>
    have ha : isAbbreviated context = true := ha
    have e1 : (fun n => !isAbbreviated context && decide (payloadNested n = .undefined)) = fun _ => false := by funext n; rw [ha]; rfl
    have e2 : (fun n => isAbbreviated context && plain n) = plain := by funext n; rw [ha]; rfl
    simp only [e1, e2, steps_nil_of_false, dropWhile_false]
    constructor
    · rintro ⟨d₁, d₂, d₃, d₄, h1, h2, h3, h4, rfl⟩
      cases h2
      obtain ⟨⟨p, a⟩, hpa⟩ : ∃ d, payloadSignatureLine context sig {} = d := ⟨_, rfl⟩
      have hl := (headLine_iff hk).mpr ⟨hpa, rfl⟩
      have hd := (head_empty hl).2
      obtain ⟨q, b, h5, rfl⟩ := (under_iff hd ha hpa rfl).mp h1
      obtain ⟨q', b', h6, rfl⟩ := bodyBlocks_iff.mp h3
      obtain ⟨q'', b'', h7, rfl⟩ := (sections_iff (b := false) (fun _ => by decide)).mp h4
      have hch := (checked_iff (outer := outer) (vs := a ++ b ++ b' ++ b'') (c := _) (p := q'') hk).mpr rfl
      exact ⟨q'', _, .short hc hl h5 (starts_until.mpr ⟨rfl, rfl⟩) h6 h7 hch, rfl⟩
    · rintro ⟨p, ws, h, rfl⟩
      cases h with
      | full h1 => cases (uniq h1).2
      | short h1 h2 h3 h4 h5 h6 h7 =>
        obtain ⟨rfl, _⟩ := uniq h1
        obtain ⟨rfl, rfl⟩ := starts_until.mp h4
        have hd := (head_empty h2).2
        obtain ⟨hl, rfl⟩ := (headLine_iff hk).mp h2
        exact ⟨_, _, _, _, (under_iff hd ha hl rfl).mpr ⟨_, _, h3, rfl⟩, rfl, bodyBlocks_iff.mpr ⟨_, _, h5, rfl⟩,
          (sections_iff (b := false) (fun _ => by decide)).mpr ⟨_, _, h6, rfl⟩, (checked_iff hk).mp h7⟩

end Verif.Payload
