import Verif.Proof.PayloadSpec

/-! # The body and the schema of a payload -/

namespace Verif.Payload
open Verif Verif.Text Verif.Section Verif.Recognition Verif.Spec Verif.Spec.Recognition Verif.Spec.Payload Verif.Props

variable {w : World} {context : SectionType} {outer : List SectionType}

theorem asset_of {t parent : SectionType} {n sig : Node} {blocks : List Node} (hp : Parts n sig blocks)
    (hs : ∀ m ∈ n.children, InSource w.source m.sourceMap) : Asset w.source n (assetText w t parent sig blocks) := by
  refine ⟨sig, blocks, blocks.takeWhile plain, blocks.dropWhile plain, (getFirstLine sig.text).2, hp,
    (until_iff plain_iff).mpr ⟨rfl, rfl⟩, remainder_iff.mpr rfl, ?_⟩
  unfold assetText
  have hsub : ∀ m ∈ blocks, m ∈ n.children := by
    rcases hp.2 with ⟨pre, h, _⟩ | ⟨h, _⟩ <;> rw [h] <;> intro m hm <;> simp [hm]
  congr 1
  · unfold signatureContent lines
    simp only [List.isEmpty_iff]
    split <;> rfl
  · congr 1
    apply List.map_congr_left
    intro m hm
    exact content_eq (hs m (hsub m ((List.takeWhile_sublist plain).subset hm)))

/-! ## One block -/

theorem read_of_nested {n : Node} (h : payloadNested n ≠ .undefined) : ∃ sig blocks, Parts n sig blocks := by
  obtain ⟨hk, hc⟩ := nested_item h
  obtain ⟨sig, blocks, hr⟩ := read_ne hc
  exact ⟨sig, blocks, parts_iff.mpr ⟨hk, hr⟩⟩

theorem readHeaders_body (w : World) (rs) (d : Data) : (readHeaders w rs d).payload.body = d.payload.body ∧
    (readHeaders w rs d).payload.schema = d.payload.schema := ⟨rfl, rfl⟩

theorem headers_foldl (w : World) (parent : SectionType) (l : List Node) : ∀ d : Data,
    (l.foldl (fun d n => readHeaders w n.sourceMap (d.warn (contentAsCodeBlock w .headers parent n).2)) d).payload.body =
      d.payload.body ∧
    (l.foldl (fun d n => readHeaders w n.sourceMap (d.warn (contentAsCodeBlock w .headers parent n).2)) d).payload.schema =
      d.payload.schema := by
  induction l with
  | nil => intro d; exact ⟨rfl, rfl⟩
  | cons n l ih => intro d; rw [List.foldl_cons]; exact ih _

theorem headersResult_body (w : World) (parent : SectionType) (sig : Node) (blocks : List Node) (d : Data) :
    (headersResult w parent sig blocks d).payload.body = d.payload.body ∧
    (headersResult w parent sig blocks d).payload.schema = d.payload.schema := by
  unfold headersResult
  simp only [Data.warn]
  exact headers_foldl w parent _ _

theorem step_body {n sig : Node} {blocks : List Node} {last : SectionType} {d d' : Data} (hn : payloadNested n = .body)
    (hp : Parts n sig blocks) (h : sectionData w context outer n last d = .ok d') :
    d'.payload.body = assetText w .body context sig blocks := by
  unfold sectionData at h
  rw [hn, (parts_iff.mp hp).2] at h
  simp only [Except.ok.injEq] at h
  rw [← h]; rfl

theorem step_schema {n sig : Node} {blocks : List Node} {last : SectionType} {d d' : Data} (hn : payloadNested n = .schema)
    (hp : Parts n sig blocks) (h : sectionData w context outer n last d = .ok d') :
    d'.payload.schema = assetText w .schema context sig blocks := by
  unfold sectionData at h
  rw [hn, (parts_iff.mp hp).2] at h
  simp only [Except.ok.injEq] at h
  rw [← h]; rfl

theorem step_other {n : Node} {last : SectionType} {d d' : Data} (hu : payloadNested n ≠ .undefined)
    (h : sectionData w context outer n last d = .ok d') :
    (payloadNested n ≠ .body → d'.payload.body = d.payload.body) ∧
    (payloadNested n ≠ .schema → d'.payload.schema = d.payload.schema) := by
  obtain ⟨sig, blocks, hp⟩ := read_of_nested hu
  unfold sectionData at h
  rw [(parts_iff.mp hp).2] at h
  rcases nested_cases n with hn | hn | hn | hn | hn | hn
  · rw [hn] at h
    simp only [Except.ok.injEq] at h
    rw [← h]
    exact ⟨fun _ => (headersResult_body ..).1, fun _ => (headersResult_body ..).2⟩
  · rw [hn] at h
    simp only [Except.ok.injEq] at h
    rw [← h]
    exact ⟨fun h' => absurd hn h', fun _ => rfl⟩
  · rw [hn] at h
    simp only [Except.ok.injEq] at h
    rw [← h]
    exact ⟨fun _ => rfl, fun h' => absurd hn h'⟩
  · rw [hn] at h
    simp only [Except.ok.injEq] at h
    rw [← h]
    exact ⟨fun _ => rfl, fun _ => rfl⟩
  · rw [hn] at h
    simp only at h
    split at h <;> simp only [Except.ok.injEq] at h <;> rw [← h] <;> exact ⟨fun _ => rfl, fun _ => rfl⟩
  · exact absurd hn hu

theorem sectionData_undefined {n : Node} (last : SectionType) (d : Data) (hn : payloadNested n = .undefined) :
    sectionData w context outer n last d = payloadUnexpected w last n ⟨.undefined :: context :: outer, d⟩ := by
  unfold sectionData
  rw [hn]

theorem step_undefined {n : Node} {last : SectionType} {d d' : Data} (hn : payloadNested n = .undefined)
    (h : sectionData w context outer n last d = .ok d') :
    d'.payload.schema = d.payload.schema ∧
    (¬ (TextBlock n ∧ last = .body) → d'.payload.body = d.payload.body) ∧
    (TextBlock n → last = .body → InSource w.source n.sourceMap →
      d'.payload.body = d.payload.body ++ closed (content w.source n)) := by
  rw [sectionData_undefined last d hn] at h
  unfold payloadUnexpected at h
  split at h
  · rename_i hc
    unfold addDangling at h
    split at h
    · cases h
    · rename_i asset ha
      simp only [Except.ok.injEq] at h
      rw [← h]
      refine ⟨rfl, fun h' => absurd hc h', fun _ _ hs => ?_⟩
      simp only
      congr 1
      rw [twoNewLines_closed ha]
      unfold content sourceOf
      split
      · rfl
      · rw [mapBytes_selected hs]
  · rename_i hc
    simp only [Except.ok.injEq] at h
    rw [← h]
    exact ⟨rfl, fun _ => rfl, fun h1 h2 => absurd ⟨h1, h2⟩ hc⟩

/-! ## The loop -/

theorem loop_append {σ : Type} {f : Node → SectionType → σ → Except Stop σ} {ty : Node → SectionType} {b : Node} {l₂ : List Node} {d' : σ}
    (l₁ : List Node) : ∀ {last d}, loop f ty (l₁ ++ b :: l₂) last d = .ok d' →
      ∃ last' d₁, loop f ty (b :: l₂) last' d₁ = .ok d' := by
  induction l₁ with
  | nil => intro last d h; exact ⟨last, d, h⟩
  | cons n l ih =>
    intro last d h
    rw [List.cons_append, loop] at h
    split at h
    · cases h
    · exact ih h

theorem loop_cons {σ : Type} {f : Node → SectionType → σ → Except Stop σ} {ty : Node → SectionType} {n : Node} {l : List Node} {last d d'}
    (h : loop f ty (n :: l) last d = .ok d') : ∃ d₁, f n last d = .ok d₁ ∧ loop f ty l (lastOf ty n l last) d₁ = .ok d' := by
  rw [loop] at h
  split at h
  · cases h
  · rename_i d₁ h1; exact ⟨d₁, h1, h⟩

theorem loop_schema {l : List Node} (hl : ∀ n ∈ l, ¬ SchemaItem n) : ∀ {last d d'},
    loop (sectionData w context outer) payloadNested l last d = .ok d' → d'.payload.schema = d.payload.schema := by
  induction l with
  | nil => intro last d d' h; rw [loop] at h; cases h; rfl
  | cons n l ih =>
    intro last d d' h
    obtain ⟨d₁, h1, h2⟩ := loop_cons h
    rw [ih (fun m hm => hl m (by simp [hm])) h2]
    by_cases hu : payloadNested n = .undefined
    · exact (step_undefined hu h1).1
    · exact (step_other hu h1).2 (by rw [Ne, schema_iff]; exact hl n (by simp))

/-- Without a body section, and not directly after one. -/
theorem loop_quiet {l : List Node} (hl : ∀ n ∈ l, ¬ BodyItem n) : ∀ {last d d'}, (l ≠ [] → last ≠ .body) →
    loop (sectionData w context outer) payloadNested l last d = .ok d' → d'.payload.body = d.payload.body := by
  induction l with
  | nil => intro last d d' _ h; rw [loop] at h; cases h; rfl
  | cons n l ih =>
    intro last d d' hlast h
    obtain ⟨d₁, h1, h2⟩ := loop_cons h
    have hb : payloadNested n ≠ .body := by rw [Ne, body_iff]; exact hl n (by simp)
    rw [ih (fun m hm => hl m (by simp [hm])) ?_ h2]
    · by_cases hu : payloadNested n = .undefined
      · exact (step_undefined hu h1).2.1 (fun h => hlast (by simp) h.2)
      · exact (step_other hu h1).1 hb
    · intro _
      unfold lastOf
      split
      · exact hb
      · exact hlast (by simp)

theorem text_undefined {n : Node} (h : TextBlock n) : payloadNested n = .undefined := by
  by_cases hu : payloadNested n = .undefined
  · exact hu
  · exact absurd h (part_not_text (payloadNested_iff.mp hu))

theorem isText_false {l : List Node} (h : ∀ n, l.head? = some n → ¬ TextBlock n) : isText l.head? = false := by
  cases l with
  | nil => rfl
  | cons a l => rw [List.head?_cons, ← Bool.not_eq_true, textBlock_iff]; exact h a rfl

theorem loop_text {c rest : List Node} : ∀ {d d'}, (∀ n ∈ c ++ rest, ¬ BodyItem n) → (∀ n ∈ c, InSource w.source n.sourceMap) → c ≠ [] → (∀ n ∈ c, TextBlock n) →
    (∀ n, rest.head? = some n → ¬ TextBlock n) →
    loop (sectionData w context outer) payloadNested (c ++ rest) .body d = .ok d' →
    d'.payload.body = d.payload.body ++ (c.map fun n => closed (content w.source n)).flatten := by
  induction c with
  | nil => intro d d' _ _ h; exact absurd rfl h
  | cons x c ih =>
    intro d d' hb hs _ ht hr h
    rw [List.cons_append] at h
    obtain ⟨d₁, h1, h2⟩ := loop_cons h
    have hx := ht x (by simp)
    have e1 := (step_undefined (text_undefined hx) h1).2.2 hx rfl (hs x (by simp))
    cases c with
    | nil =>
      rw [List.nil_append] at h2
      rw [loop_quiet (fun n hn => hb n (by simp [hn])) ?_ h2, e1]
      · simp
      · intro hne
        unfold lastOf
        rw [if_pos ⟨hne, .inr (isText_false hr)⟩, text_undefined hx]
        decide
    | cons y c =>
      have hl : lastOf payloadNested x (y :: c ++ rest) .body = .body := by
        unfold lastOf
        rw [if_neg]
        rintro ⟨_, h | h⟩
        · exact h (text_undefined hx)
        · rw [List.cons_append, List.head?_cons, (textBlock_iff y).mpr (ht y (by simp))] at h
          cases h
      rw [hl] at h2
      rw [ih (fun n hn => hb n (by simp only [List.cons_append, List.mem_cons]; exact .inr (by simpa using hn)))
        (fun n hn => hs n (by simp [hn])) (by simp) (fun n hn => ht n (by simp [hn])) hr h2, e1]
      simp

/-- Directly after a body section. -/
theorem loop_continues {l c : List Node} {d d' : Data} (hl : ∀ n ∈ l, ¬ BodyItem n) (hs : ∀ n ∈ l, InSource w.source n.sourceMap)
    (hc : Continues l c) (h : loop (sectionData w context outer) payloadNested l .body d = .ok d') :
    d'.payload.body = d.payload.body ++ (c.map fun n => closed (content w.source n)).flatten := by
  obtain ⟨rest, ht, hr, ⟨rfl, hp⟩ | ⟨y, rfl, hy, hyp⟩⟩ := hc
  · cases c with
    | cons x c => exact loop_text hl (fun n hn => hs n (List.mem_append_left _ hn)) (by simp) ht hr h
    | nil =>
      rw [List.nil_append] at h hl
      cases rest with
      | nil => rw [loop] at h; cases h; simp
      | cons z rest =>
        obtain ⟨d₁, h1, h2⟩ := loop_cons h
        have hz := hp rfl z rfl
        have hu := payloadNested_iff.mpr hz
        have hb : payloadNested z ≠ .body := by rw [Ne, body_iff]; exact hl z (by simp)
        rw [loop_quiet (fun n hn => hl n (by simp [hn])) ?_ h2, (step_other hu h1).1 hb]
        · simp
        · intro hne
          unfold lastOf
          rw [if_pos ⟨hne, .inl hu⟩]
          exact hb
  · rw [List.cons_append] at h hl hs
    obtain ⟨d₁, h1, h2⟩ := loop_cons h
    have hu : payloadNested y = .undefined := by
      by_cases hu : payloadNested y = .undefined
      · exact hu
      · exact absurd (payloadNested_iff.mp hu) hyp
    have e1 := (step_undefined hu h1).2.1 (fun h => hy h.1)
    cases c with
    | cons x c =>
      have hl' : lastOf payloadNested y (x :: c ++ rest) .body = .body := by
        unfold lastOf
        rw [if_neg]
        rintro ⟨_, h | h⟩
        · exact h hu
        · rw [List.cons_append, List.head?_cons, (textBlock_iff x).mpr (ht x (by simp))] at h
          cases h
      rw [hl'] at h2
      rw [loop_text (fun n hn => hl n (List.mem_cons_of_mem _ hn))
        (fun n hn => hs n (List.mem_cons_of_mem _ (List.mem_append_left _ hn))) (by simp) ht hr h2, e1]
    | nil =>
      rw [List.nil_append] at h2
      rw [loop_quiet (fun n hn => hl n (by simp [hn])) ?_ h2, e1]
      · simp
      · intro hne
        unfold lastOf
        rw [if_pos ⟨hne, .inr (isText_false hr)⟩, hu]
        decide

theorem continues_exists (l : List Node) : ∃ c, Continues l c := by
  have key : ∀ l : List Node, ∃ c rest, l = c ++ rest ∧ (∀ n ∈ c, TextBlock n) ∧ ∀ n, rest.head? = some n → ¬ TextBlock n := by
    intro l
    refine ⟨l.takeWhile (fun n => isText (some n)), l.dropWhile (fun n => isText (some n)), List.takeWhile_append_dropWhile.symm, ?_, ?_⟩
    · intro n hn; exact (textBlock_iff n).mp (mem_takeWhile_imp (p := fun n => isText (some n)) hn)
    · intro n hn; have := head_dropWhile hn; rw [← textBlock_iff, this]; simp
  cases l with
  | nil => exact ⟨[], [], by simp, by simp, .inl ⟨rfl, by simp⟩⟩
  | cons x xs =>
    by_cases ht : TextBlock x
    · obtain ⟨c, rest, h1, h2, h3⟩ := key (x :: xs)
      refine ⟨c, rest, h2, h3, .inl ⟨h1, ?_⟩⟩
      rintro rfl n hn
      rw [List.nil_append] at h1
      rw [← h1] at hn
      cases hn
      rw [← h1] at h3
      exact absurd ht (h3 x rfl)
    · by_cases hp : PayloadPart x
      · exact ⟨[], x :: xs, by simp, by rintro n hn; cases hn; exact ht, .inl ⟨rfl, by rintro _ n hn; cases hn; exact hp⟩⟩
      · obtain ⟨c, rest, h1, h2, h3⟩ := key xs
        exact ⟨c, rest, h2, h3, .inr ⟨x, by rw [h1]; rfl, ht, hp⟩⟩

end Verif.Payload
