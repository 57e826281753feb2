import Verif.Proof.PayloadRead

/-!
# C85: a request, a response or a model, exactly

All parts of the payload and all warnings, in their order, in terms of the blocks of the section (`Spec/PayloadParts.lean`).
-/

namespace Verif.Props
open Verif Verif.Text Verif.Section Verif.Recognition Verif.Spec Verif.Spec.Recognition Verif.Spec.Payload Verif.Payload

/-- C85: what a request, a response or a model gives, and what is reported, is what `PayloadRead` says; the section is read with all its
blocks, and only it. -/
theorem C85_payload (w : World) (context : SectionType) (outer : List SectionType) (siblings : List Node) (i : Nat) (n sig : Node)
    (blocks : List Node) (hc : ∃ k b, (k, b, context) ∈ payloadTypes) (hi : siblings[i]? = some n) (hp : Parts n sig blocks)
    (j : Nat) (pd : PD Data) :
    parsePayload w context outer siblings i = .ok (j, pd) ↔
      j = i + 1 ∧ ∃ p ws, PayloadRead w context sig blocks p ws ∧ pd = ⟨context :: outer, ⟨p, ws⟩⟩ := by
  obtain ⟨hk, hr⟩ := parts_iff.mp hp
  rw [payload_parse w context outer hi hk hr]
  constructor
  · intro h
    cases hq : payloadResult w context outer sig blocks with
    | error e => rw [hq] at h; cases h
    | ok d =>
      rw [hq] at h
      cases h
      obtain ⟨p, ws, h1, rfl⟩ := (read_iff hc).mp hq
      exact ⟨rfl, p, ws, h1, rfl⟩
  · rintro ⟨rfl, p, ws, h, rfl⟩
    rw [(read_iff hc).mpr ⟨p, ws, h, rfl⟩]
    rfl

/-- C85: so there is one payload and one list of warnings at most that `PayloadRead` allows. -/
theorem C85_one (w : World) (context : SectionType) (sig : Node) (blocks : List Node) (p q : References.Payload) (vs ws : List Warning)
    (h : PayloadRead w context sig blocks p vs) (h' : PayloadRead w context sig blocks q ws) : p = q ∧ vs = ws := by
  have hc : ∃ k b, (k, b, context) ∈ payloadTypes := by
    cases h with
    | full h => exact ⟨_, _, h⟩
    | short h => exact ⟨_, _, h⟩
  have e1 := (read_iff (outer := []) hc).mpr ⟨p, vs, h, rfl⟩
  have e2 := (read_iff (outer := []) hc).mpr ⟨q, ws, h', rfl⟩
  rw [e1] at e2
  cases e2
  exact ⟨rfl, rfl⟩

/-! ## Where the parser stops -/

theorem steps_error {σ : Type} {g : Node → σ → Except Stop σ} {e : Stop} {l : List Node} : ∀ {d : σ}, steps g l d = .error e →
    ∃ n ∈ l, ∃ d', g n d' = .error e := by
  induction l with
  | nil => intro d h; rw [steps] at h; cases h
  | cons n l ih =>
    intro d h
    rw [steps] at h
    split at h
    · cases h; exact ⟨n, by simp, d, by assumption⟩
    · obtain ⟨m, hm, d', h⟩ := ih h
      exact ⟨m, by simp [hm], d', h⟩

theorem loop_error {σ : Type} {f : Node → SectionType → σ → Except Stop σ} {ty : Node → SectionType} {e : Stop} {l : List Node} :
    ∀ {last d}, loop f ty l last d = .error e → ∃ n ∈ l, ∃ last d, f n last d = .error e := by
  induction l with
  | nil => intro last d h; rw [loop] at h; cases h
  | cons n l ih =>
    intro last d h
    rw [loop] at h
    split at h
    · cases h; exact ⟨n, by simp, last, d, by assumption⟩
    · obtain ⟨m, hm, last, d', h⟩ := ih h
      exact ⟨m, by simp [hm], last, d', h⟩

theorem section_error {w : World} {context : SectionType} {outer : List SectionType} {n : Node} {last : SectionType} {d : Data} {e : Stop}
    (h : sectionData w context outer n last d = .error e) : e = .outOfRange ∧
      ((n.kind = .code ∧ (n.text = [] ∨ n.text = [asc '\n'])) ∨
        (n.kind = .paragraph ∧ (ByteBuffer.mapBytesRangeSet n.sourceMap w.source = [] ∨ ByteBuffer.mapBytesRangeSet n.sourceMap w.source = [asc '\n']))) := by
  by_cases hu : payloadNested n = .undefined
  · rw [sectionData_undefined _ _ hu] at h
    unfold payloadUnexpected at h
    split at h
    · rename_i hk
      unfold addDangling at h
      by_cases hc : n.kind = .code
      · rw [if_pos hc] at h
        cases ht : twoNewLines n.text with
        | none => rw [ht] at h; cases h; exact ⟨rfl, .inl ⟨hc, twoNewLines_none.mp ht⟩⟩
        | some r => rw [ht] at h; cases h
      · rw [if_neg hc] at h
        cases ht : twoNewLines (sourceOf w n) with
        | none => rw [ht] at h; cases h; exact ⟨rfl, .inr ⟨hk.1.resolve_right hc, twoNewLines_none.mp ht⟩⟩
        | some r => rw [ht] at h; cases h
    · cases h
  · exfalso
    obtain ⟨sig, blocks, hp⟩ := read_of_nested hu
    have hr := (parts_iff.mp hp).2
    unfold sectionData at h
    rcases nested_cases n with hm | hm | hm | hm | hm | hm
    all_goals (try (rw [hm, hr] at h; simp only at h))
    · cases h
    · cases h
    · cases h
    · cases h
    · split at h <;> cases h
    · exact hu hm

/-- C85: a payload that cannot be read stops the parser out of range, and only where one of its blocks is a block of code or a paragraph
without text, or where there is a description so far that is a line feed. -/
theorem C85_stops (w : World) (context : SectionType) (outer : List SectionType) (siblings : List Node) (i : Nat) (n sig : Node)
    (blocks : List Node) (hc : ∃ k b, (k, b, context) ∈ payloadTypes) (hi : siblings[i]? = some n) (hp : Parts n sig blocks) (e : Stop)
    (h : parsePayload w context outer siblings i = .error e) : e = .outOfRange ∧
      ((∃ m ∈ blocks, (m.kind = .code ∧ (m.text = [] ∨ m.text = [asc '\n'])) ∨
        (m.kind = .paragraph ∧ (ByteBuffer.mapBytesRangeSet m.sourceMap w.source = [] ∨ ByteBuffer.mapBytesRangeSet m.sourceMap w.source = [asc '\n']))) ∨
        (blocks ≠ [] ∧ Remainder sig.text [asc '\n'])) := by
  obtain ⟨k, b, hc⟩ := hc
  obtain ⟨hk, ha⟩ := kind_types hc
  rw [payload_parse w context outer hi (parts_iff.mp hp).1 (parts_iff.mp hp).2] at h
  cases hq : payloadResult w context outer sig blocks with
  | ok d => rw [hq] at h; cases h
  | error e' =>
    rw [hq] at h
    cases h
    unfold payloadResult itemResult at hq
    obtain ⟨⟨p, a⟩, hpa⟩ : ∃ d, payloadSignatureLine context sig {} = d := ⟨_, rfl⟩
    have hl := (headLine_iff hk).mpr ⟨hpa, rfl⟩
    have desc : ∀ {l : List Node} {p : References.Payload} {vs : List Warning},
        steps (fun n d => payloadDescription w n ⟨context :: outer, d⟩) l ⟨p, vs⟩ = .error e → e = .outOfRange ∧ l ≠ [] ∧
          p.description = [asc '\n'] := by
      intro l
      induction l with
      | nil => intro p vs h; rw [steps] at h; cases h
      | cons m l ih =>
        intro p vs h
        rw [steps] at h
        split at h
        · rename_i e' he
          cases h
          unfold payloadDescription at he
          simp only at he
          split at he
          · rename_i ht
            cases he
            by_cases hd : p.description = []
            · rw [if_pos (by simpa using hd)] at ht; cases ht
            · rw [if_neg (by simpa using hd)] at ht
              exact ⟨rfl, by simp, (twoNewLines_none.mp ht).resolve_left hd⟩
          · cases he
        · rename_i d' hd
          unfold payloadDescription at hd
          simp only at hd
          split at hd
          · cases hd
          · rename_i s hs
            cases hd
            obtain ⟨h1, _, h2⟩ := ih h
            exfalso
            simp only at h2
            by_cases hd : p.description = []
            · rw [if_pos (by simpa using hd)] at hs
              cases hs
              rw [List.nil_append] at h2
              have hb := Text.bare_trim (sourceOf w m)
              rw [h2] at hb
              exact absurd (hb.1 (asc '\n') rfl) (by simp [White, asc])
            · rw [if_neg (by simpa using hd)] at hs
              rw [twoNewLines_closed hs] at h2
              unfold closed at h2
              split at h2
              · rename_i h3
                have h4 := h3.length_le
                have := congrArg List.length h2
                simp at this h4
                omega
              · split at h2
                · rename_i h3
                  have h4 := h3.length_le
                  have := congrArg List.length h2
                  simp at this h4
                  omega
                · have := congrArg List.length h2
                  simp only [List.length_append, List.length_cons, List.length_nil] at this
                  omega
    cases b with
    | true =>
      have ha : isAbbreviated context = false := ha
      have e1 : (fun n => !isAbbreviated context && decide (payloadNested n = .undefined)) = fun n => decide (payloadNested n = .undefined) := by
        funext n; rw [ha]; rfl
      have e2 : (fun n => isAbbreviated context && plain n) = fun _ => false := by funext n; rw [ha]; rfl
      have hsig := full_signature (w := w) (outer := outer) (head_empty hl).1 ha hpa rfl
      simp only [hsig, e1, e2, steps_nil_of_false, dropWhile_false] at hq
      split at hq
      · rename_i hs
        cases hq
        obtain ⟨h1, h2, h3⟩ := desc hs
        exact ⟨h1, .inr ⟨fun hb => h2 (by rw [hb]; rfl), remainder_iff.mpr h3.symm⟩⟩
      · split at hq
        · rename_i hs
          cases hq
          obtain ⟨m, hm, _, _, hs⟩ := loop_error hs
          obtain ⟨h1, h2⟩ := section_error hs
          exact ⟨h1, .inl ⟨m, (List.dropWhile_sublist _).subset hm, h2⟩⟩
        · cases hq
    | false =>
      have ha : isAbbreviated context = true := ha
      have e1 : (fun n => !isAbbreviated context && decide (payloadNested n = .undefined)) = fun _ => false := by funext n; rw [ha]; rfl
      have e2 : (fun n => isAbbreviated context && plain n) = plain := by funext n; rw [ha]; rfl
      simp only [e1, e2, steps_nil_of_false, dropWhile_false] at hq
      split at hq
      · rename_i hs
        exfalso
        unfold payloadSignature at hs
        have htop : (⟨context :: outer, {}⟩ : PD Data).top = context := rfl
        simp only [htop, hpa, ha, Bool.not_true, Bool.false_eq_true, if_false, headOf_rest] at hs
        split at hs
        · cases hs
        · rename_i hne
          split at hs
          · cases hs
          · rw [(head_empty hl).2, List.nil_append, lines_eq (remainder_iff.mpr rfl), closed_lines (by simpa using hne)] at hs
            cases hs
      · split at hq
        · rename_i hs
          exfalso
          obtain ⟨m, _, d', hs⟩ := steps_error hs
          unfold payloadContent at hs
          simp only at hs
          split at hs
          · cases hs
          · split at hs
            · cases hs
            · split at hs <;> cases hs
        · split at hq
          · rename_i hs
            cases hq
            obtain ⟨m, hm, _, _, hs⟩ := loop_error hs
            obtain ⟨h1, h2⟩ := section_error hs
            exact ⟨h1, .inl ⟨m, (List.dropWhile_sublist _).subset hm, h2⟩⟩
          · cases hq

/-! ## Examples -/

/-- A response with a status, headers and a body. -/
def headed : Node := listItem [para "Headers", .mk .code (str "A:b") [⟨0, 3⟩] []]
def whole : Node := listItem [para "Response 201", headed, listItem [para "Body", code "x"]]

example : Parts whole (para "Response 201") [headed, listItem [para "Body", code "x"]] ∧ (.response, true, .response) ∈ payloadTypes :=
  ⟨⟨rfl, .inl ⟨[], rfl, by simp, ⟨_, _, rfl, by decide⟩⟩⟩, by decide⟩

example : (match parsePayload { plainWorld with source := str "A:b" } .response [.action] [whole] 0 with
    | .ok (j, pd) => some (j, pd.data.payload, pd.data.warnings)
    | .error _ => none) = some (1, { name := str "201", headers := [(str "A", str "b")], body := str "x" }, []) := by
  decide +kernel

/-- A response that C85_stops is about: an empty block of code after a body. -/
example : parsePayload plainWorld .response [.action] [listItem [para "Response 201", listItem [para "Body", code "x"], code ""]] 0 =
    .error .outOfRange := by
  have h : shown (parsePayload plainWorld .response [.action] [listItem [para "Response 201", listItem [para "Body", code "x"], code ""]] 0) = none := by
    decide +kernel
  cases hr : parsePayload plainWorld .response [.action] [listItem [para "Response 201", listItem [para "Body", code "x"], code ""]] 0 with
  | ok x => rw [hr] at h; cases h
  | error e =>
    rw [(C85_stops plainWorld .response [.action] _ 0 _ (para "Response 201") _ ⟨.response, true, by decide⟩ rfl
      ⟨rfl, .inl ⟨[], rfl, by simp, ⟨_, _, rfl, by decide⟩⟩⟩ e hr).1]

end Verif.Props
