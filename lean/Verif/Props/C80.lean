import Verif.Proof.PayloadBody
import Verif.Proof.References
/-!
# C80: bodies and schemas
-/
namespace Verif.Props
open Verif Verif.Text Verif.Section Verif.Recognition Verif.Spec Verif.Spec.Recognition Verif.Spec.Payload Verif.Payload

/-! ## The stages of the parser -/

theorem outcome_ok {σ : Type} {i j : Nat} {ctx : List SectionType} {r : Except Stop σ} {pd : PD σ}
    (h : outcome i ctx r = .ok (j, pd)) : j = i + 1 ∧ r = .ok pd.data := by
  cases r with
  | error e => cases h
  | ok d => simp only [outcome, Except.ok.injEq, Prod.mk.injEq] at h; obtain ⟨h1, rfl⟩ := h; exact ⟨h1.symm, rfl⟩

/-- The stages of a parse that succeeds. -/
structure Stages (w : World) (context : SectionType) (outer : List SectionType) (sig : Node) (blocks : List Node)
    (d₁ d₂ d₃ d₄ : Data) : Prop where
  signature : payloadSignature w sig ⟨context :: outer, {}⟩ = .ok d₁
  description : steps (fun n d => payloadDescription w n ⟨context :: outer, d⟩)
    (blocks.takeWhile fun n => !isAbbreviated context && (payloadNested n = .undefined)) d₁ = .ok d₂
  content : steps (fun n d => payloadContent w n ⟨context :: outer, d⟩)
    ((blocks.dropWhile fun n => !isAbbreviated context && (payloadNested n = .undefined)).takeWhile
      fun n => isAbbreviated context && plain n) d₂ = .ok d₃
  sections : loop (sectionData w context outer) payloadNested
    ((blocks.dropWhile fun n => !isAbbreviated context && (payloadNested n = .undefined)).dropWhile
      fun n => isAbbreviated context && plain n) .undefined d₃ = .ok d₄

theorem stages {w : World} {context : SectionType} {outer : List SectionType} {siblings : List Node} {i j : Nat} {n sig : Node}
    {blocks : List Node} {pd : PD Data} (hi : siblings[i]? = some n) (hp : Parts n sig blocks)
    (h : parsePayload w context outer siblings i = .ok (j, pd)) :
    j = i + 1 ∧ ∃ d₁ d₂ d₃ d₄, Stages w context outer sig blocks d₁ d₂ d₃ d₄ ∧
      pd.data = (payloadFinalize ⟨context :: outer, d₄⟩).data := by
  obtain ⟨hk, hr⟩ := parts_iff.mp hp
  rw [payload_parse w context outer hi hk hr] at h
  obtain ⟨h1, h2⟩ := outcome_ok h
  refine ⟨h1, ?_⟩
  unfold payloadResult itemResult at h2
  split at h2
  · cases h2
  rename_i d₁ e1
  split at h2
  · cases h2
  rename_i d₂ e2
  split at h2
  · cases h2
  rename_i d₃ e3
  split at h2
  · cases h2
  rename_i d₄ e4
  simp only [Except.ok.injEq] at h2
  exact ⟨d₁, d₂, d₃, d₄, ⟨e1, e2, e3, e4⟩, h2.symm⟩

theorem finalize_payload (ctx : List SectionType) (d : Data) : (payloadFinalize ⟨ctx, d⟩).data.payload = d.payload := rfl

theorem payloadType_nested {n : Node} (h : ∃ c ∈ n.children, PayloadPart c) : isAbbreviated (recognise.payloadType n) = false := by
  obtain ⟨c, hc, hp⟩ := h
  have hany : (n.children.any fun c => payloadNested c ≠ .undefined) = true := by
    rw [List.any_eq_true]; exact ⟨c, hc, by simpa using payloadNested_iff.mpr hp⟩
  have : recognise.payloadType n = Recognise.ofList n (payloadOf n) := rfl
  rw [this]
  unfold Recognise.ofList
  split
  · unfold payloadOf
    split
    · rfl
    · rw [hany]; rename_i k _; cases k <;> rfl
  · rfl

theorem payloadType_abbreviated {n : Node} (hn : recognise.payloadType n ≠ .undefined) (h : ¬ ∃ c ∈ n.children, PayloadPart c) :
    isAbbreviated (recognise.payloadType n) = true := by
  have hany : (n.children.any fun c => payloadNested c ≠ .undefined) = false := by
    rw [← Bool.not_eq_true, List.any_eq_true]; rintro ⟨c, hc, hp⟩
    exact h ⟨c, hc, payloadNested_iff.mp (by simpa using hp)⟩
  have e : recognise.payloadType n = Recognise.ofList n (payloadOf n) := rfl
  rw [e] at hn ⊢
  unfold Recognise.ofList at hn ⊢
  split
  · rename_i hk
    rw [if_pos hk] at hn
    unfold payloadOf at hn ⊢
    split
    · rename_i hkind; rw [hkind] at hn; exact absurd rfl hn
    · rw [hany]; rename_i k _; cases k <;> rfl
  · rename_i hk; rw [if_neg hk] at hn; exact absurd rfl hn

theorem signature_full {w : World} {context : SectionType} {outer : List SectionType} {sig : Node} {d : Data}
    (ha : isAbbreviated context = false) (h : payloadSignature w sig ⟨context :: outer, {}⟩ = .ok d) :
    d.payload.body = [] ∧ d.payload.schema = [] := by
  unfold payloadSignature at h
  simp only [PD.top, ha] at h
  split at h
  · cases h; exact ⟨rfl, rfl⟩
  · simp only [Bool.not_false, if_true, Except.ok.injEq] at h; rw [← h]; exact ⟨rfl, rfl⟩

theorem description_full {w : World} {ctx : List SectionType} (l : List Node) : ∀ {d d' : Data},
    steps (fun n d => payloadDescription w n ⟨ctx, d⟩) l d = .ok d' →
      d'.payload.body = d.payload.body ∧ d'.payload.schema = d.payload.schema := by
  induction l with
  | nil => intro d d' h; rw [steps] at h; cases h; exact ⟨rfl, rfl⟩
  | cons n l ih =>
    intro d d' h
    rw [steps] at h
    split at h
    · cases h
    · rename_i d₁ h1
      have := ih h
      unfold payloadDescription at h1
      simp only at h1
      split at h1
      · cases h1
      · simp only [Except.ok.injEq] at h1; rw [← h1] at this; exact this

/-- A payload with sections: the data before the sections, and the sections. -/
theorem full_stages {w : World} {outer : List SectionType} {siblings : List Node} {i j : Nat} {n sig : Node}
    {blocks : List Node} {pd : PD Data} {context : SectionType} (ha : isAbbreviated context = false) (hi : siblings[i]? = some n) (hp : Parts n sig blocks)
    (h : parsePayload w context outer siblings i = .ok (j, pd)) :
    ∃ d d', d.payload.body = [] ∧ d.payload.schema = [] ∧
      loop (sectionData w context outer) payloadNested
        (blocks.dropWhile fun n => payloadNested n = .undefined) .undefined d = .ok d' ∧
      pd.data.payload = d'.payload := by
  obtain ⟨_, d₁, d₂, d₃, d₄, hst, hd⟩ := stages hi hp h
  obtain ⟨s1, s2, s3, s4⟩ := hst
  simp only [ha, Bool.not_false, Bool.true_and, Bool.false_and] at s2 s3 s4
  rw [dropWhile_false] at s4
  rw [steps_nil_of_false] at s3
  cases s3
  have b1 := signature_full ha s1
  have b2 := description_full _ s2
  exact ⟨d₂, d₄, b2.1.trans b1.1, b2.2.trans b1.2, s4, by rw [hd]; rfl⟩

theorem dropWhile_section {p : Node → Bool} (before : List Node) {b : Node} {l : List Node} (hb : p b = false) :
    ∃ l', (before ++ b :: l).dropWhile p = l' ++ b :: l := by
  induction before with
  | nil => exact ⟨[], by rw [List.nil_append, List.dropWhile_cons_of_neg (by simp [hb])]⟩
  | cons a t ih =>
    rw [List.cons_append, List.dropWhile_cons]
    split
    · exact ih
    · exact ⟨a :: t, rfl⟩

theorem parts_mem {n sig : Node} {blocks : List Node} (hp : Parts n sig blocks) {m : Node} (h : m ∈ sig :: blocks) : m ∈ n.children := by
  rcases hp.2 with ⟨pre, e, _⟩ | ⟨e, _⟩ <;> rw [e]
  · exact List.mem_append_right _ h
  · exact h

theorem body_part {n : Node} (h : BodyItem n) : PayloadPart n := by
  obtain ⟨s, h1, h2⟩ := h; exact ⟨s, h1, .inr (.inl h2)⟩

theorem schema_part {n : Node} (h : SchemaItem n) : PayloadPart n := by
  obtain ⟨s, h1, h2⟩ := h; exact ⟨s, h1, .inr (.inr (.inl h2))⟩

/-! ## Payloads with sections -/

/-- C80: the body of a payload is the text of its last `Body` section, followed by the paragraphs and blocks of code that stand
directly after that section, each made to end with an empty line. -/
theorem C80_body (w : World) (outer : List SectionType) (siblings : List Node) (i j : Nat) (n sig b : Node) (before l : List Node)
    (pd : PD Data) (hi : siblings[i]? = some n) (hp : Parts n sig (before ++ b :: l)) (hs : Mapped w.source n)
    (hb : BodyItem b) (hl : ∀ m ∈ l, ¬ BodyItem m)
    (h : parsePayload w (recognise.payloadType n) outer siblings i = .ok (j, pd)) :
    ∃ v c, Asset w.source b v ∧ Continues l c ∧
      pd.data.payload.body = v ++ (c.map fun m => closed (content w.source m)).flatten := by
  have hmem : ∀ m ∈ b :: l, m ∈ n.children := fun m hm => parts_mem hp (by simp at hm; simp [hm])
  have ha := payloadType_nested (n := n) ⟨b, hmem b (by simp), body_part hb⟩
  obtain ⟨d, d', _, _, h1, h2⟩ := full_stages ha hi hp h
  have hnb := (body_iff b).mpr hb
  obtain ⟨l', hl'⟩ := dropWhile_section (p := fun n => payloadNested n = .undefined) before (b := b) (l := l) (by simp [hnb])
  rw [hl'] at h1
  obtain ⟨last, d₁, h3⟩ := loop_append l' h1
  obtain ⟨d₂, h4, h5⟩ := loop_cons h3
  obtain ⟨sb, bb, hpb⟩ := read_of_nested (n := b) (by rw [hnb]; decide)
  obtain ⟨c, hc⟩ := continues_exists l
  refine ⟨_, c, asset_of (t := .body) (parent := recognise.payloadType n) hpb (hs b (hmem b (by simp))).2, hc, ?_⟩
  rw [h2, ← step_body hnb hpb h4]
  cases l with
  | nil =>
    have : c = [] := by
      obtain ⟨rest, _, _, ⟨h, _⟩ | ⟨y, h, _⟩⟩ := hc
      · simp at h; exact h.1
      · simp at h
    subst this
    rw [loop] at h5; cases h5; simp
  | cons x l =>
    have : lastOf payloadNested b (x :: l) last = .body := by
      unfold lastOf
      rw [if_pos ⟨by simp, .inl (by rw [hnb]; decide)⟩, hnb]
    rw [this] at h5
    exact loop_continues hl (fun m hm => (hs m (hmem m (List.mem_cons_of_mem _ hm))).1) hc h5

/-- C80: a payload with sections but without a `Body` section has no body. -/
theorem C80_no_body (w : World) (outer : List SectionType) (siblings : List Node) (i j : Nat) (n sig : Node) (blocks : List Node)
    (pd : PD Data) (hi : siblings[i]? = some n) (hp : Parts n sig blocks) (hn : ∃ c ∈ n.children, PayloadPart c)
    (hl : ∀ m ∈ blocks, ¬ BodyItem m)
    (h : parsePayload w (recognise.payloadType n) outer siblings i = .ok (j, pd)) : pd.data.payload.body = [] := by
  obtain ⟨d, d', hb, _, h1, h2⟩ := full_stages (payloadType_nested hn) hi hp h
  rw [h2, loop_quiet (fun m hm => hl m ((List.dropWhile_sublist _).subset hm)) (fun _ => by decide) h1, hb]

/-- C80: the schema of a payload is the text of its last `Schema` section. -/
theorem C80_schema (w : World) (outer : List SectionType) (siblings : List Node) (i j : Nat) (n sig b : Node) (before l : List Node)
    (pd : PD Data) (hi : siblings[i]? = some n) (hp : Parts n sig (before ++ b :: l)) (hs : Mapped w.source n)
    (hb : SchemaItem b) (hl : ∀ m ∈ l, ¬ SchemaItem m)
    (h : parsePayload w (recognise.payloadType n) outer siblings i = .ok (j, pd)) :
    Asset w.source b pd.data.payload.schema := by
  have hmem : ∀ m ∈ b :: l, m ∈ n.children := fun m hm => parts_mem hp (by simp at hm; simp [hm])
  have ha := payloadType_nested (n := n) ⟨b, hmem b (by simp), schema_part hb⟩
  obtain ⟨d, d', _, _, h1, h2⟩ := full_stages ha hi hp h
  have hnb := (schema_iff b).mpr hb
  obtain ⟨l', hl'⟩ := dropWhile_section (p := fun n => payloadNested n = .undefined) before (b := b) (l := l) (by simp [hnb])
  rw [hl'] at h1
  obtain ⟨last, d₁, h3⟩ := loop_append l' h1
  obtain ⟨d₂, h4, h5⟩ := loop_cons h3
  obtain ⟨sb, bb, hpb⟩ := read_of_nested (n := b) (by rw [hnb]; decide)
  rw [h2, loop_schema hl h5, step_schema hnb hpb h4]
  exact asset_of hpb (hs b (hmem b (by simp))).2

/-- C80: without one, there is none. -/
theorem C80_no_schema (w : World) (outer : List SectionType) (siblings : List Node) (i j : Nat) (n sig : Node) (blocks : List Node)
    (pd : PD Data) (hi : siblings[i]? = some n) (hp : Parts n sig blocks) (hn : ∃ c ∈ n.children, PayloadPart c)
    (hl : ∀ m ∈ blocks, ¬ SchemaItem m)
    (h : parsePayload w (recognise.payloadType n) outer siblings i = .ok (j, pd)) : pd.data.payload.schema = [] := by
  obtain ⟨d, d', _, hb, h1, h2⟩ := full_stages (payloadType_nested hn) hi hp h
  rw [h2, loop_schema (fun m hm => hl m ((List.dropWhile_sublist _).subset hm)) h1, hb]

/-! ## Payloads without sections -/

theorem headOf_rest (context : SectionType) (text : Bytes) : (headOf context text).rest = (getFirstLine text).2 := by
  unfold headOf
  split
  · unfold payloadHead; simp only; split <;> rfl
  · rfl

/-- What the first line of a payload says: its name and its media type. -/
def ownOf (k : PayloadKind) (sig : Node) : References.Payload :=
  { name := (payloadHead k sig.text).parts.name
    headers := if (payloadHead k sig.text).parts.media = [] then []
      else [(str "Content-Type", (payloadHead k sig.text).parts.media)] }

theorem kind_types {k : PayloadKind} {b : Bool} {t : SectionType} (h : (k, b, t) ∈ payloadTypes) :
    kindOf t = some k ∧ isAbbreviated t = !b := by
  simp only [payloadTypes, List.mem_cons, Prod.mk.injEq, List.not_mem_nil, or_false] at h
  rcases h with ⟨rfl, rfl, rfl⟩ | ⟨rfl, rfl, rfl⟩ | ⟨rfl, rfl, rfl⟩ | ⟨rfl, rfl, rfl⟩ | ⟨rfl, rfl, rfl⟩ | ⟨rfl, rfl, rfl⟩ <;>
    exact ⟨rfl, rfl⟩

theorem line_payload {k : PayloadKind} {context : SectionType} (h : kindOf context = some k) (sig : Node) :
    (payloadSignatureLine context sig {}).payload = ownOf k sig := by
  unfold payloadSignatureLine headOf ownOf
  rw [h]
  simp only [List.isEmpty_iff, List.nil_append]
  rfl

theorem closed_lines {rest : Bytes} (h : rest ≠ []) : twoNewLines (lines rest) = some (closed (lines rest)) := by
  cases ht : twoNewLines (lines rest) with
  | none =>
    exfalso
    have h1 : lines rest = rest ++ [asc '\n'] := by unfold lines; rw [if_neg h]
    rw [twoNewLines_none, h1] at ht
    rcases ht with ht | ht
    · simp at ht
    · cases rest with
      | nil => exact h rfl
      | cons a r => simp at ht
  | some r => rw [twoNewLines_closed ht]

/-- The signature of a payload without sections. -/
theorem signature_short (w : World) {k : PayloadKind} {context : SectionType} (outer : List SectionType) (sig : Node)
    (hk : (k, false, context) ∈ payloadTypes) :
    ∃ d, payloadSignature w sig ⟨context :: outer, {}⟩ = .ok d ∧ ∀ rest, rest = (getFirstLine sig.text).2 →
      (rest = [] → d.payload = ownOf k sig) ∧
      (rest ≠ [] → References.modelReference rest = none → d.payload = { ownOf k sig with body := closed (lines rest) }) ∧
      (∀ symbol, rest ≠ [] → References.modelReference rest = some symbol →
        d.payload = References.refer w.table symbol (ownOf k sig)) := by
  obtain ⟨h1, h2⟩ := kind_types hk
  have hl := line_payload h1 sig
  unfold payloadSignature
  simp only [PD.top, headOf_rest, h2, List.isEmpty_iff]
  by_cases hr : (getFirstLine sig.text).2 = []
  · rw [if_pos hr]
    refine ⟨_, rfl, ?_⟩
    rintro rest rfl
    exact ⟨fun _ => hl, fun h => absurd hr h, fun _ h => absurd hr h⟩
  · rw [if_neg hr]
    simp only [Bool.not_false, Bool.not_true, Bool.false_eq_true, if_false]
    cases hm : References.modelReference (getFirstLine sig.text).2 with
    | some symbol =>
      refine ⟨_, rfl, ?_⟩
      rintro rest rfl
      refine ⟨fun h => absurd h hr, fun _ h => ?_, fun s _ h => ?_⟩
      · rw [hm] at h; cases h
      · rw [hm] at h; cases h
        unfold Payload.refer
        rw [← hl]
    | none =>
      have hb : (payloadSignatureLine context sig {}).payload.body = [] := rfl
      have hsc : (signatureContent .body context sig).1 = lines (getFirstLine sig.text).2 := by
        unfold signatureContent lines
        simp [List.isEmpty_iff, hr]
      simp only [hb, List.nil_append, hsc, closed_lines hr]
      refine ⟨_, rfl, ?_⟩
      rintro rest rfl
      refine ⟨fun h => absurd h hr, fun _ _ => ?_, fun s _ h => ?_⟩
      · simp only [hl]
      · rw [hm] at h; cases h

/-- Content blocks that are no references. -/
theorem content_plain {w : World} {ctx : List SectionType} {l : List Node} : ∀ {d d' : Data}, d.payload.refId = [] →
    (∀ m ∈ l, m.kind = .paragraph → References.modelReference m.text = none) → (∀ m ∈ l, InSource w.source m.sourceMap) →
    steps (fun n d => payloadContent w n ⟨ctx, d⟩) l d = .ok d' →
    d'.payload = { d.payload with body := d.payload.body ++ (l.map (content w.source)).flatten } := by
  induction l with
  | nil => intro d d' _ _ _ h; rw [steps] at h; cases h; simp
  | cons n l ih =>
    intro d d' hr hm hs h
    rw [steps] at h
    split at h
    · cases h
    · rename_i d₁ h1
      have e : d₁.payload = { d.payload with body := d.payload.body ++ content w.source n } := by
        unfold payloadContent at h1
        simp only [hr, List.isEmpty_nil, Bool.not_true, Bool.false_eq_true, if_false] at h1
        have hadd : (addContent w (⟨ctx, d⟩ : PD Data).top n d).payload = { d.payload with body := d.payload.body ++ content w.source n } := by
          unfold addContent
          simp only [content_eq (hs n (by simp))]
        split at h1
        · simp only [Except.ok.injEq] at h1; rw [← h1]; exact hadd
        · rename_i hc
          have hk : n.kind = .paragraph := by
            by_cases hk : n.kind = .paragraph
            · exact hk
            · exact absurd (.inr hk) hc
          rw [hm n (by simp) hk] at h1
          simp only [Except.ok.injEq] at h1; rw [← h1]; exact hadd
      have := ih (by rw [e]; exact hr) (fun m hm' => hm m (by simp [hm'])) (fun m hm' => hs m (by simp [hm'])) h
      rw [this, e]
      simp

/-- Content blocks after a reference. -/
theorem content_after {w : World} {ctx : List SectionType} {l : List Node} : ∀ {d d' : Data}, d.payload.refId ≠ [] →
    steps (fun n d => payloadContent w n ⟨ctx, d⟩) l d = .ok d' →
    d'.payload = d.payload ∧ d'.warnings = d.warnings ++ List.replicate l.length (.afterReference d.payload.refId) := by
  induction l with
  | nil => intro d d' _ h; rw [steps] at h; cases h; simp
  | cons n l ih =>
    intro d d' hr h
    rw [steps] at h
    have : payloadContent w n ⟨ctx, d⟩ = .ok (d.warn [.afterReference d.payload.refId]) := by
      unfold payloadContent
      simp only
      rw [if_pos (by simp [hr])]
    rw [this] at h
    have e := ih (d := d.warn [.afterReference d.payload.refId]) hr h
    refine ⟨e.1, ?_⟩
    rw [e.2]
    simp [Data.warn, List.replicate_succ]

theorem reference_none {text : Bytes} (h0 : (0 : UInt8) ∉ text) (h : ∀ s, ¬ References.IsReference text s) :
    References.modelReference text = none := by
  cases hm : References.modelReference text with
  | none => rfl
  | some s => exact absurd ((References.modelReference_iff h0 s).mp hm) (h s)

/-- A payload without sections, in stages. -/
theorem short_stages {w : World} {outer : List SectionType} {siblings : List Node} {i j : Nat} {n sig : Node}
    {blocks pre post : List Node} {pd : PD Data} {k : PayloadKind} (hn : (k, false, recognise.payloadType n) ∈ payloadTypes)
    (hi : siblings[i]? = some n) (hp : Parts n sig blocks) (hu : Until Starts blocks pre post)
    (h : parsePayload w (recognise.payloadType n) outer siblings i = .ok (j, pd)) :
    ∃ d₁ d₂ d₃, payloadSignature w sig ⟨recognise.payloadType n :: outer, {}⟩ = .ok d₁ ∧
      steps (fun n' d => payloadContent w n' ⟨recognise.payloadType n :: outer, d⟩) pre d₁ = .ok d₂ ∧
      loop (sectionData w (recognise.payloadType n) outer) payloadNested post .undefined d₂ = .ok d₃ ∧
      (∀ m ∈ post, payloadNested m = .undefined) ∧
      pd.data = (payloadFinalize ⟨recognise.payloadType n :: outer, d₃⟩).data := by
  obtain ⟨hk, ha⟩ := kind_types hn
  obtain ⟨_, d₁, d₂, d₃, d₄, ⟨s1, s2, s3, s4⟩, hd⟩ := stages hi hp h
  obtain ⟨rfl, rfl⟩ := (until_iff plain_iff).mp hu
  simp only [ha, Bool.not_false, Bool.not_true, Bool.true_and, Bool.false_and] at s2 s3 s4
  rw [dropWhile_false] at s3 s4
  rw [steps_nil_of_false] at s2
  cases s2
  refine ⟨d₁, d₃, d₄, s1, s3, s4, ?_, hd⟩
  intro m hm
  by_cases hu : payloadNested m = .undefined
  · exact hu
  · exfalso
    have hmc : m ∈ n.children := parts_mem hp (List.mem_cons_of_mem _ ((List.dropWhile_sublist _).subset hm))
    have := payloadType_nested (n := n) ⟨m, hmc, payloadNested_iff.mp hu⟩
    rw [ha] at this
    cases this

theorem loop_undefined {w : World} {context : SectionType} {outer : List SectionType} {l : List Node}
    (hl : ∀ m ∈ l, payloadNested m = .undefined) : ∀ d : Data,
    loop (sectionData w context outer) payloadNested l .undefined d = .ok (d.warn (l.map ignored)) := by
  induction l with
  | nil => intro d; simp [loop, Data.warn]
  | cons n l ih =>
    intro d
    have hn := hl n (by simp)
    rw [loop, sectionData_undefined _ _ hn]
    unfold payloadUnexpected
    rw [if_neg (by rintro ⟨_, h⟩; cases h)]
    simp only
    have : lastOf payloadNested n l .undefined = .undefined := by unfold lastOf; split <;> simp [hn]
    rw [this, ih (fun m hm => hl m (by simp [hm]))]
    simp [Data.warn]

/-- C80: the body of a payload without sections, if it is no reference, is what follows its first line (made to end with an empty
line) and all blocks up to one that starts a section; it has no schema; and each block from there on is reported. -/
theorem C80_abbreviated (w : World) (outer : List SectionType) (siblings : List Node) (i j : Nat) (n sig : Node)
    (blocks pre post : List Node) (rest : Bytes) (pd : PD Data) (k : PayloadKind)
    (hn : (k, false, recognise.payloadType n) ∈ payloadTypes) (hi : siblings[i]? = some n) (hp : Parts n sig blocks)
    (hs : Mapped w.source n) (hr : Remainder sig.text rest) (hu : Until Starts blocks pre post)
    (h0 : (0 : UInt8) ∉ rest ∧ ∀ m ∈ pre, (0 : UInt8) ∉ m.text)
    (hrr : ∀ s, ¬ References.IsReference rest s)
    (hrp : ∀ m ∈ pre, m.kind = .paragraph → ∀ s, ¬ References.IsReference m.text s)
    (h : parsePayload w (recognise.payloadType n) outer siblings i = .ok (j, pd)) :
    pd.data.payload = { ownOf k sig with
      body := (if rest = [] then [] else closed (lines rest)) ++ (pre.map (content w.source)).flatten } ∧
    (post.map ignored).Sublist pd.data.warnings := by
  obtain ⟨d₁, d₂, d₃, s1, s2, s3, s4, hd⟩ := short_stages hn hi hp hu h
  obtain ⟨d, e1, e2⟩ := signature_short w outer sig hn
  rw [e1] at s1
  cases s1
  rw [remainder_iff] at hr
  obtain ⟨a1, a2, _⟩ := e2 rest hr
  rw [loop_undefined s4] at s3
  cases s3
  have hp1 : d₁.payload = { ownOf k sig with body := if rest = [] then [] else closed (lines rest) } := by
    by_cases hre : rest = []
    · rw [a1 hre, if_pos hre]; rfl
    · rw [a2 hre (reference_none h0.1 hrr), if_neg hre]
  have := content_plain (by rw [hp1]; rfl) (fun m hm hk => reference_none (h0.2 m hm) (hrp m hm hk))
    (fun m hm => (hs m (parts_mem hp (by rw [hu.1]; simp [hm]))).1) s2
  rw [hd]
  constructor
  · show d₂.payload = _
    rw [this, hp1]
  · unfold payloadFinalize
    simp only [PD.set, Data.warn]
    rw [List.append_assoc]
    exact (List.sublist_append_left _ _).trans (List.sublist_append_right _ _)

/-- C80: a payload without sections whose text is a reference is what its model says, if that is known by now, and otherwise
waits for it; each further block is reported and ignored. -/
theorem C80_reference (w : World) (outer : List SectionType) (siblings : List Node) (i j : Nat) (n sig : Node)
    (blocks pre post others : List Node) (rest text symbol : Bytes) (pd : PD Data) (k : PayloadKind)
    (hn : (k, false, recognise.payloadType n) ∈ payloadTypes) (hi : siblings[i]? = some n) (hp : Parts n sig blocks)
    (hr : Remainder sig.text rest) (hu : Until Starts blocks pre post)
    (ht : (rest ≠ [] ∧ text = rest ∧ others = pre) ∨
      (rest = [] ∧ ∃ r, pre = r :: others ∧ r.kind = .paragraph ∧ text = r.text))
    (h0 : (0 : UInt8) ∉ text) (href : References.IsReference text symbol) (hsy : symbol ≠ [])
    (h : parsePayload w (recognise.payloadType n) outer siblings i = .ok (j, pd)) :
    (∀ m, w.table.find symbol = some m → References.Filled (ownOf k sig) m pd.data.payload ∧
      pd.data.payload.refId = symbol ∧ pd.data.payload.refState = .resolved) ∧
    (w.table.find symbol = none → pd.data.payload = { ownOf k sig with refId := symbol, refState := .pending }) ∧
    (List.replicate others.length (Warning.afterReference symbol) ++ post.map ignored).Sublist pd.data.warnings := by
  have hm := (References.modelReference_iff h0 symbol).mpr href
  obtain ⟨d₁, d₂, d₃, s1, s2, s3, s4, hd⟩ := short_stages hn hi hp hu h
  obtain ⟨d, e1, e2⟩ := signature_short w outer sig hn
  rw [e1] at s1
  cases s1
  rw [remainder_iff] at hr
  obtain ⟨a1, _, a3⟩ := e2 rest hr
  rw [loop_undefined s4] at s3
  cases s3
  have hid : ∀ p, (References.refer w.table symbol p).refId = symbol := by
    intro p; unfold References.refer; split <;> rfl
  have key : d₂.payload = References.refer w.table symbol (ownOf k sig) ∧
      ∃ ws, d₂.warnings = ws ++ List.replicate others.length (.afterReference symbol) := by
    rcases ht with ⟨t1, rfl, rfl⟩ | ⟨t1, r, rfl, t3, rfl⟩
    · have hd1 := a3 symbol t1 hm
      have hne : d₁.payload.refId ≠ [] := by rw [hd1, hid]; exact hsy
      obtain ⟨c1, c2⟩ := content_after hne s2
      rw [hd1, hid] at c2
      exact ⟨by rw [c1, hd1], _, c2⟩
    · have hd1 := a1 t1
      rw [steps] at s2
      split at s2
      · cases s2
      · rename_i d' hc
        have hb : d₁.payload.body = [] := by rw [hd1]; rfl
        have hi0 : d₁.payload.refId = [] := by rw [hd1]; rfl
        have hd' : d'.payload = References.refer w.table symbol (ownOf k sig) := by
          unfold payloadContent at hc
          simp only [hi0, hb, List.isEmpty_nil, Bool.not_true, Bool.false_eq_true, if_false, false_or, ne_eq, t3,
            not_true_eq_false, hm] at hc
          simp only [Except.ok.injEq] at hc
          rw [← hc, ← hd1]
          rfl
        have hne : d'.payload.refId ≠ [] := by rw [hd', hid]; exact hsy
        obtain ⟨c1, c2⟩ := content_after hne s2
        rw [hd', hid] at c2
        exact ⟨by rw [c1, hd'], _, c2⟩
  obtain ⟨k1, ws, k2⟩ := key
  have hpay : pd.data.payload = References.refer w.table symbol (ownOf k sig) := by rw [hd]; exact k1
  refine ⟨?_, ?_, ?_⟩
  · intro m hf
    rw [hpay]
    unfold References.refer
    rw [hf]
    exact ⟨References.assign_filled _ _ _ _, rfl, rfl⟩
  · intro hf
    rw [hpay]
    unfold References.refer
    rw [hf]
  · rw [hd]
    unfold payloadFinalize
    simp only [PD.set, Data.warn]
    rw [k2, List.append_assoc ws, List.append_assoc ws]
    exact (List.sublist_append_left _ _).trans (List.sublist_append_right _ _)

/-! ## Nothing is dropped silently -/

/-- A block is reported as unexpected or, if it is added to a body, as out of place. -/
def Reported : Warning → Bool
  | .unexpectedHeader | .unrecognised | .dangling _ => true
  | _ => false

/-- Warnings are only added. -/
def Grows (d d' : Data) : Prop := ∃ ws, d'.warnings = d.warnings ++ ws

theorem Grows.refl (d : Data) : Grows d d := ⟨[], by simp⟩
theorem Grows.trans {a b c : Data} (h : Grows a b) (h' : Grows b c) : Grows a c := by
  obtain ⟨x, h⟩ := h; obtain ⟨y, h'⟩ := h'; exact ⟨x ++ y, by rw [h', h, List.append_assoc]⟩
theorem Grows.warn (d : Data) (ws : List Warning) : Grows d (d.warn ws) := ⟨ws, rfl⟩

theorem grows_readHeaders (w : World) (rs) (d : Data) : Grows d (readHeaders w rs d) := ⟨_, rfl⟩

theorem grows_headers (w : World) (parent : SectionType) (sig : Node) (blocks : List Node) (d : Data) :
    Grows d (headersResult w parent sig blocks d) := by
  have hf : ∀ (l : List Node) (d : Data), Grows d
      (l.foldl (fun d n => readHeaders w n.sourceMap (d.warn (contentAsCodeBlock w .headers parent n).2)) d) := by
    intro l
    induction l with
    | nil => exact Grows.refl
    | cons n l ih => intro d; rw [List.foldl_cons]; exact ((Grows.warn _ _).trans (grows_readHeaders ..)).trans (ih _)
  unfold headersResult
  simp only
  exact ((((Grows.warn _ _).trans (grows_readHeaders ..)).trans (hf _ _)).trans (Grows.warn _ _)).trans (Grows.warn _ _)

theorem grows_section {w : World} {context : SectionType} {outer : List SectionType} {n : Node} {last : SectionType} {d d' : Data}
    (hn : payloadNested n ≠ .undefined) (h : sectionData w context outer n last d = .ok d') : Grows d d' := by
  obtain ⟨sig, blocks, hp⟩ := read_of_nested hn
  unfold sectionData at h
  rw [(parts_iff.mp hp).2] at h
  rcases nested_cases n with hn' | hn' | hn' | hn' | hn' | hn'
  · rw [hn'] at h
    simp only [Except.ok.injEq] at h
    rw [← h]
    exact grows_headers ..
  · rw [hn'] at h
    simp only [Except.ok.injEq, redefinition, Data.warn, List.append_assoc] at h
    rw [← h]
    exact ⟨_, rfl⟩
  · rw [hn'] at h
    simp only [Except.ok.injEq, redefinition, Data.warn, List.append_assoc] at h
    rw [← h]
    exact ⟨_, rfl⟩
  · rw [hn'] at h
    simp only [Except.ok.injEq] at h
    rw [← h]
    exact ⟨_, rfl⟩
  · rw [hn'] at h
    simp only at h
    split at h <;> simp only [Except.ok.injEq] at h <;> rw [← h] <;> exact ⟨_, rfl⟩
  · exact absurd hn' hn

theorem reported_step {w : World} {context : SectionType} {outer : List SectionType} {n : Node} {last : SectionType} {d d' : Data}
    (hn : payloadNested n = .undefined) (h : sectionData w context outer n last d = .ok d') :
    ∃ ws x, d'.warnings = d.warnings ++ ws ++ [x] ∧ Reported x = true := by
  rw [sectionData_undefined _ _ hn] at h
  unfold payloadUnexpected at h
  split at h
  · rename_i hc
    unfold addDangling at h
    split at h
    · cases h
    · simp only [Except.ok.injEq] at h
      rw [← h, hc.2]
      have : (if n.kind = Kind.code then codeBlockLevel .body - 1 else codeBlockLevel .body) ≠ 0 := by
        split <;> decide
      simp only [this, if_false]
      exact ⟨_, _, rfl, rfl⟩
  · simp only [Except.ok.injEq] at h
    rw [← h]
    refine ⟨[], ignored n, by simp [Data.warn], ?_⟩
    unfold ignored; split <;> rfl

theorem reported_loop {w : World} {context : SectionType} {outer : List SectionType} {l : List Node} : ∀ {last d d'},
    loop (sectionData w context outer) payloadNested l last d = .ok d' → Grows d d' ∧
      ∀ u : List Node, u.Sublist l → (∀ x ∈ u, payloadNested x = .undefined) →
        (d.warnings.filter Reported).length + u.length ≤ (d'.warnings.filter Reported).length := by
  induction l with
  | nil =>
    intro last d d' h
    rw [loop] at h; cases h
    refine ⟨Grows.refl _, ?_⟩
    intro u hu _
    rw [List.sublist_nil.mp hu]; simp
  | cons n l ih =>
    intro last d d' h
    obtain ⟨d₁, h1, h2⟩ := loop_cons h
    obtain ⟨g, i1⟩ := ih h2
    by_cases hn : payloadNested n = .undefined
    · obtain ⟨ws, x, e, hx⟩ := reported_step hn h1
      refine ⟨Grows.trans ⟨ws ++ [x], by rw [e, List.append_assoc]⟩ g, ?_⟩
      intro u hu hall
      have hlen : (d₁.warnings.filter Reported).length = (d.warnings.filter Reported).length + (ws.filter Reported).length + 1 := by
        rw [e, List.filter_append, List.filter_append]; simp [hx]; omega
      cases hu with
      | cons _ hu => have := i1 u hu hall; omega
      | cons_cons _ hu =>
        have := i1 _ hu (fun y hy => hall y (by simp [hy]))
        simp only [List.length_cons]; omega
    · obtain ⟨ws, e⟩ := grows_section hn h1
      refine ⟨Grows.trans ⟨ws, e⟩ g, ?_⟩
      intro u hu hall
      have hlen : (d.warnings.filter Reported).length ≤ (d₁.warnings.filter Reported).length := by
        rw [e, List.filter_append]; simp
      cases hu with
      | cons _ hu => have := i1 u hu hall; omega
      | cons_cons _ hu => exact absurd (hall n (by simp)) hn

/-- C80: in a payload with sections, each block after the first section that is no section itself is reported by a warning of
its own. -/
theorem C80_reported (w : World) (outer : List SectionType) (siblings : List Node) (i j : Nat) (n sig b : Node) (before l u : List Node)
    (pd : PD Data) (hi : siblings[i]? = some n) (hp : Parts n sig (before ++ b :: l)) (hb : PayloadPart b)
    (hu : u.Sublist l) (hun : ∀ x ∈ u, ¬ PayloadPart x)
    (h : parsePayload w (recognise.payloadType n) outer siblings i = .ok (j, pd)) :
    u.length ≤ (pd.data.warnings.filter Reported).length := by
  have hmem : ∀ m ∈ b :: l, m ∈ n.children := fun m hm => parts_mem hp (by simp at hm; simp [hm])
  have ha := payloadType_nested (n := n) ⟨b, hmem b (by simp), hb⟩
  obtain ⟨_, d₁, d₂, d₃, d₄, ⟨s1, s2, s3, s4⟩, hd⟩ := stages hi hp h
  simp only [ha, Bool.not_false, Bool.true_and, Bool.false_and] at s2 s3 s4
  rw [dropWhile_false] at s4
  have hnb := payloadNested_iff.mpr hb
  obtain ⟨l', hl'⟩ := dropWhile_section (p := fun n => payloadNested n = .undefined) before (b := b) (l := l) (by simp [hnb])
  rw [hl'] at s4
  have := (reported_loop s4).2 u ((hu.cons b).trans (List.sublist_append_right _ _)) (by
    intro x hx
    by_cases hxu : payloadNested x = .undefined
    · exact hxu
    · exact absurd (payloadNested_iff.mp hxu) (hun x hx))
  rw [hd]
  unfold payloadFinalize
  simp only [PD.set, Data.warn, List.filter_append, List.length_append]
  omega

/-- C80: each block of a `Body` or `Schema` section that is not part of its text is reported. -/
theorem C80_section_reported (w : World) (outer : List SectionType) (siblings : List Node) (i j : Nat) (n sig b sb : Node)
    (before l bb pre post : List Node)
    (pd : PD Data) (hi : siblings[i]? = some n) (hp : Parts n sig (before ++ b :: l)) (hb : BodyItem b ∨ SchemaItem b)
    (hpb : Parts b sb bb) (hu : Until Starts bb pre post)
    (h : parsePayload w (recognise.payloadType n) outer siblings i = .ok (j, pd)) :
    (post.map ignored).Sublist pd.data.warnings := by
  have hmem : ∀ m ∈ b :: l, m ∈ n.children := fun m hm => parts_mem hp (by simp at hm; simp [hm])
  have hbp : PayloadPart b := hb.elim body_part schema_part
  have ha := payloadType_nested (n := n) ⟨b, hmem b (by simp), hbp⟩
  obtain ⟨_, d₁, d₂, d₃, d₄, ⟨s1, s2, s3, s4⟩, hd⟩ := stages hi hp h
  simp only [ha, Bool.not_false, Bool.true_and, Bool.false_and] at s2 s3 s4
  rw [dropWhile_false] at s4
  have hnb := payloadNested_iff.mpr hbp
  obtain ⟨l', hl'⟩ := dropWhile_section (p := fun n => payloadNested n = .undefined) before (b := b) (l := l) (by simp [hnb])
  rw [hl'] at s4
  obtain ⟨last, d₅, h3⟩ := loop_append l' s4
  obtain ⟨d₆, h4, h5⟩ := loop_cons h3
  obtain ⟨ws, hg⟩ := (reported_loop h5).1
  obtain ⟨rfl, rfl⟩ := (until_iff plain_iff).mp hu
  have h6 : ((bb.dropWhile plain).map ignored).Sublist d₆.warnings := by
    unfold sectionData at h4
    rw [(parts_iff.mp hpb).2] at h4
    rcases hb with hb | hb
    · rw [(body_iff b).mpr hb] at h4
      simp only [Except.ok.injEq] at h4
      rw [← h4]
      simp only [assetWarnings, ← List.append_assoc]
      exact List.sublist_append_right _ _
    · rw [(schema_iff b).mpr hb] at h4
      simp only [Except.ok.injEq] at h4
      rw [← h4]
      simp only [assetWarnings, ← List.append_assoc]
      exact List.sublist_append_right _ _
  rw [hd]
  unfold payloadFinalize
  simp only [PD.set, Data.warn]
  rw [hg]
  exact (h6.trans (List.sublist_append_left _ _)).trans (List.sublist_append_left _ _)

/-! ## When the parser does not fail -/

theorem content_total (w : World) (ctx : List SectionType) (l : List Node) : ∀ d : Data,
    ∃ d', steps (fun n d => payloadContent w n ⟨ctx, d⟩) l d = .ok d' := by
  induction l with
  | nil => intro d; exact ⟨d, rfl⟩
  | cons n l ih =>
    intro d
    obtain ⟨d₁, h⟩ : ∃ d₁, payloadContent w n ⟨ctx, d⟩ = .ok d₁ := by
      unfold payloadContent
      simp only
      repeat' split
      all_goals exact ⟨_, rfl⟩
    rw [steps, h]
    exact ih d₁

theorem trim_ne (s : Bytes) : trim s ≠ [asc '\n'] := by
  intro h
  have := (bare_trim s).1 (asc '\n') (by rw [h]; rfl)
  exact this (by simp [White]; decide)

theorem twoNewLines_length {c r : Bytes} (h : twoNewLines c = some r) : 2 ≤ r.length := by
  unfold twoNewLines at h
  split at h
  · cases h
  · simp only at h
    split at h
    · cases h
    · rename_i c' hc
      simp only [Option.some.injEq] at h
      generalize (if _ ≠ asc '\n' then c ++ [asc '\n'] else c) = s at hc h
      have : 2 ≤ s.length := by
        cases s with
        | nil => simp at hc
        | cons a s =>
          cases s with
          | nil => simp at hc
          | cons b s => simp
      rw [← h]; split
      · simp; omega
      · exact this

theorem description_total (w : World) (ctx : List SectionType) (l : List Node) : ∀ d : Data, d.payload.description ≠ [asc '\n'] →
    ∃ d', steps (fun n d => payloadDescription w n ⟨ctx, d⟩) l d = .ok d' := by
  induction l with
  | nil => intro d _; exact ⟨d, rfl⟩
  | cons n l ih =>
    intro d hd
    obtain ⟨d₁, h, h'⟩ : ∃ d₁, payloadDescription w n ⟨ctx, d⟩ = .ok d₁ ∧ d₁.payload.description ≠ [asc '\n'] := by
      unfold payloadDescription
      simp only [List.isEmpty_iff]
      by_cases he : d.payload.description = []
      · rw [if_pos he]
        exact ⟨_, rfl, by simpa using trim_ne _⟩
      · rw [if_neg he]
        cases ht : twoNewLines d.payload.description with
        | none => rcases twoNewLines_none.mp ht with h | h
                  · exact absurd h he
                  · exact absurd h hd
        | some r =>
          refine ⟨_, rfl, ?_⟩
          have := twoNewLines_length ht
          intro h
          have := congrArg List.length h
          simp at this
          omega
    rw [steps, h]
    exact ih d₁ h'

theorem loop_total {w : World} {context : SectionType} {outer : List SectionType} {l : List Node}
    (hs : ∀ m ∈ l, InSource w.source m.sourceMap)
    (hl : ∀ m ∈ l, TextBlock m → content w.source m ≠ [] ∧ content w.source m ≠ [asc '\n']) : ∀ last d,
    ∃ d', loop (sectionData w context outer) payloadNested l last d = .ok d' := by
  induction l with
  | nil => intro last d; exact ⟨d, rfl⟩
  | cons n l ih =>
    intro last d
    obtain ⟨d₁, h⟩ : ∃ d₁, sectionData w context outer n last d = .ok d₁ := by
      by_cases hu : payloadNested n = .undefined
      · rw [sectionData_undefined _ _ hu]
        unfold payloadUnexpected
        split
        · rename_i hc
          unfold addDangling
          have hc' := hl n (by simp) hc.1
          have he : (if n.kind = Kind.code then n.text else sourceOf w n) = content w.source n := by
            unfold content sourceOf
            split
            · rfl
            · exact mapBytes_selected (hs n (by simp))
          rw [he]
          cases ht : twoNewLines (content w.source n) with
          | none => rcases twoNewLines_none.mp ht with h | h
                    · exact absurd h hc'.1
                    · exact absurd h hc'.2
          | some r => exact ⟨_, rfl⟩
        · exact ⟨_, rfl⟩
      · obtain ⟨sig, blocks, hp⟩ := read_of_nested hu
        unfold sectionData
        rw [(parts_iff.mp hp).2]
        rcases nested_cases n with hn | hn | hn | hn | hn | hn
        · rw [hn]; exact ⟨_, rfl⟩
        · rw [hn]; exact ⟨_, rfl⟩
        · rw [hn]; exact ⟨_, rfl⟩
        · rw [hn]; exact ⟨_, rfl⟩
        · rw [hn]; simp only; split <;> exact ⟨_, rfl⟩
        · exact absurd hn hu
    rw [loop, h]
    exact ih (fun m hm => hs m (by simp [hm])) (fun m hm => hl m (by simp [hm])) _ d₁

/-- C80: the parser gives a result for every payload, and goes on after it, if no paragraph and no block of code in it is empty or
one empty line, and if what follows its first line is not just an empty line. -/
theorem C80_total (w : World) (outer : List SectionType) (siblings : List Node) (i : Nat) (n sig : Node)
    (blocks : List Node) (k : PayloadKind) (nested : Bool)
    (hn : (k, nested, recognise.payloadType n) ∈ payloadTypes) (hi : siblings[i]? = some n) (hp : Parts n sig blocks)
    (hs : Mapped w.source n) (hr : ¬ Remainder sig.text [asc '\n'])
    (hb : ∀ m ∈ blocks, TextBlock m → content w.source m ≠ [] ∧ content w.source m ≠ [asc '\n']) :
    ∃ pd, parsePayload w (recognise.payloadType n) outer siblings i = .ok (i + 1, pd) := by
  obtain ⟨hk, hrd⟩ := parts_iff.mp hp
  obtain ⟨_, ha⟩ := kind_types hn
  rw [payload_parse w _ outer hi hk hrd]
  generalize recognise.payloadType n = context at *
  rw [remainder_iff] at hr
  have hsm : ∀ m ∈ blocks, InSource w.source m.sourceMap := fun m hm => (hs m (parts_mem hp (List.mem_cons_of_mem _ hm))).1
  obtain ⟨d₁, s1, hd₁⟩ : ∃ d₁, payloadSignature w sig ⟨context :: outer, {}⟩ = .ok d₁ ∧
      (nested = true → d₁.payload.description ≠ [asc '\n']) := by
    cases nested with
    | false => obtain ⟨d, h, _⟩ := signature_short w outer sig hn; exact ⟨d, h, by simp⟩
    | true =>
      unfold payloadSignature
      simp only [PD.top, headOf_rest, ha, Bool.not_true, Bool.not_false, if_true]
      split
      · exact ⟨_, rfl, fun _ => by show ([] : Bytes) ≠ _; simp⟩
      · exact ⟨_, rfl, fun _ h => hr h.symm⟩
  obtain ⟨d₂, s2⟩ : ∃ d₂, steps (fun n d => payloadDescription w n ⟨context :: outer, d⟩)
      (blocks.takeWhile fun n => !isAbbreviated context && (payloadNested n = .undefined)) d₁ = .ok d₂ := by
    cases nested with
    | false =>
      simp only [ha, Bool.not_false, Bool.not_true, Bool.false_and]
      exact ⟨d₁, steps_nil_of_false ..⟩
    | true => exact description_total w _ _ d₁ (hd₁ rfl)
  obtain ⟨d₃, s3⟩ := content_total w (context :: outer)
    ((blocks.dropWhile fun n => !isAbbreviated context && (payloadNested n = .undefined)).takeWhile
      fun n => isAbbreviated context && plain n) d₂
  have sub : ∀ m ∈ ((blocks.dropWhile fun n => !isAbbreviated context && (payloadNested n = .undefined)).dropWhile
      fun n => isAbbreviated context && plain n), m ∈ blocks := fun m hm =>
    (List.dropWhile_sublist _).subset ((List.dropWhile_sublist _).subset hm)
  obtain ⟨d₄, s4⟩ := loop_total (w := w) (context := context) (outer := outer) (fun m hm => hsm m (sub m hm))
    (fun m hm => hb m (sub m hm)) .undefined d₃
  unfold payloadResult itemResult
  simp only [s1, s2, s3, s4]
  exact ⟨_, rfl⟩

/-! ## Cases -/

/-- A source, no models. -/
def plainWorld : World := ⟨str "y", [], fun _ a => (a, []), fun _ p => (p, [])⟩

def para (s : String) : Node := .mk .paragraph (str s) [⟨0, 1⟩] []
def code (s : String) : Node := .mk .code (str s) [⟨0, 1⟩] []
def listItem (ns : List Node) : Node := .mk .listItem [] [⟨0, 1⟩] ns

/-- What is seen of the result. -/
def shown (r : Except Stop (Nat × PD Data)) : Option (Bytes × Bytes × List Warning) :=
  match r with
  | .error _ => none
  | .ok (_, pd) => some (pd.data.payload.body, pd.data.payload.schema, pd.data.warnings)

/-- A response with a body, and text after it. -/
def withBody : Node := listItem [para "Response", listItem [para "Body", code "x"], para "y"]

example : recognise.payloadType withBody = .response ∧
    shown (parsePayload plainWorld .response [.action] [withBody] 0) =
      some (str "xy\n\n", [], [.missingStatus, .dangling 3]) := by
  decide +kernel

example : Parts withBody (para "Response") ([] ++ listItem [para "Body", code "x"] :: [para "y"]) ∧ Mapped plainWorld.source withBody ∧
    BodyItem (listItem [para "Body", code "x"]) ∧ (∀ m ∈ [para "y"], ¬ BodyItem m) ∧ Continues [para "y"] [para "y"] := by
  refine ⟨⟨rfl, .inl ⟨[], rfl, by simp, ⟨_, _, rfl, by decide⟩⟩⟩, ?_, ?_, ?_, ?_⟩
  · unfold Mapped InSource; decide
  · rw [← body_iff]; decide +kernel
  · simp only [← body_iff]; decide +kernel
  · exact ⟨[], by simp [TextBlock, para, Node.kind], by simp, .inl ⟨by simp, by simp⟩⟩

/-- Responses without sections. -/
def shorter : Node := listItem [para "Response\nx", code "z"]
def referring : Node := listItem [para "Response", para "[A][]", code "z"]

example : (.response, false, recognise.payloadType shorter) ∈ payloadTypes ∧
    (shown (parsePayload plainWorld .responseBody [.action] [shorter] 0)).map (·.1) = some (str "x\n\nz") := by
  decide +kernel

example : (.response, false, recognise.payloadType referring) ∈ payloadTypes ∧
    shown (parsePayload plainWorld .responseBody [.action] [referring] 0) =
      some ([], [], [.missingStatus, .afterReference (str "A")]) := by
  decide +kernel

/-- Refuted: that an additional body, which is reported as ignored, is ignored.  It replaces the first one. -/
theorem C80_second_ignored_refuted : ∃ n : Node, recognise.payloadType n = .response ∧
    shown (parsePayload plainWorld .response [.action] [n] 0) = some (str "b", [], [.missingStatus, .redefined .body]) :=
  ⟨listItem [para "Response", listItem [para "Body", code "a"], listItem [para "Body", code "b"]], by decide +kernel, by decide +kernel⟩

/-- Refuted: that every payload is parsed.  An empty block of code after a body makes the parser read before the start of an empty
text. -/
theorem C80_total_refuted : ∃ n : Node, recognise.payloadType n = .response ∧
    shown (parsePayload plainWorld .response [.action] [n] 0) = none :=
  ⟨listItem [para "Response", listItem [para "Body", code "a"], code ""], by decide +kernel, by decide +kernel⟩

end Verif.Props
