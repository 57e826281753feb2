import Verif.Props.C80
import Verif.Props.C47_C48
/-!
# C81: checks of requests and responses
-/
namespace Verif.Props
open Verif Verif.Text Verif.Section Verif.Recognition Verif.Spec Verif.Spec.Recognition Verif.Spec.Payload Verif.Payload

/-- The warnings of the checks at the end of a payload. -/
def isCheck : Warning → Bool
  | .emptyBody _ _ | .bodyNotAllowed _ => true
  | _ => false

def Quiet (ws : List Warning) : Prop := ∀ x ∈ ws, isCheck x = false

theorem Quiet.nil : Quiet [] := by intro x hx; cases hx
theorem Quiet.append {a b : List Warning} (ha : Quiet a) (hb : Quiet b) : Quiet (a ++ b) := by
  intro x hx; rcases List.mem_append.mp hx with h | h
  · exact ha x h
  · exact hb x h
theorem Quiet.one {x : Warning} (h : isCheck x = false) : Quiet [x] := by
  intro y hy; rw [List.mem_singleton.mp hy]; exact h
theorem Quiet.ite {c : Prop} [Decidable c] {a b : List Warning} (ha : Quiet a) (hb : Quiet b) : Quiet (if c then a else b) := by
  split
  · exact ha
  · exact hb
theorem Quiet.flat {α : Type} {f : α → List Warning} {l : List α} (h : ∀ x, Quiet (f x)) : Quiet (l.map f).flatten := by
  intro x hx
  obtain ⟨ws, hw, hx⟩ := List.mem_flatten.mp hx
  obtain ⟨y, _, rfl⟩ := List.mem_map.mp hw
  exact h y x hx
theorem Quiet.map {α : Type} {f : α → Warning} {l : List α} (h : ∀ x, isCheck (f x) = false) : Quiet (l.map f) := by
  intro x hx
  obtain ⟨y, _, rfl⟩ := List.mem_map.mp hx
  exact h y

theorem quiet_ignored (n : Node) : isCheck (ignored n) = false := by unfold ignored; split <;> rfl

theorem quiet_possible (c : SectionType) (n : Node) : Quiet (possibleReference c n) := by
  unfold possibleReference; split
  · exact .one rfl
  · exact .nil

theorem quiet_content (w : World) (c p : SectionType) (n : Node) : Quiet (contentAsCodeBlock w c p n).2 := by
  unfold contentAsCodeBlock
  split
  · refine (quiet_possible c n).append ?_
    unfold excessive
    split
    · exact .nil
    · split
      · exact .nil
      · exact .ite (.one rfl) .nil
  · exact (quiet_possible c n).append (.one rfl)

theorem quiet_signatureContent (c p : SectionType) (n : Node) : Quiet (signatureContent c p n).2 := by
  unfold signatureContent
  simp only
  split
  · exact .nil
  · exact .one rfl

theorem quiet_asset (w : World) (t p : SectionType) (sig : Node) (blocks : List Node) : Quiet (assetWarnings w t p sig blocks) :=
  ((quiet_signatureContent t p sig).append (.flat fun n => quiet_content w t p n)).append (.map quiet_ignored)

theorem quiet_readHeaders (w : World) (rs) {d : Data} (h : Quiet d.warnings) : Quiet (readHeaders w rs d).warnings :=
  h.append (.map fun _ => rfl)

theorem quiet_headers (w : World) (p : SectionType) (sig : Node) (blocks : List Node) {d : Data} (h : Quiet d.warnings) :
    Quiet (headersResult w p sig blocks d).warnings := by
  have hf : ∀ (l : List Node) (d : Data), Quiet d.warnings → Quiet
      (l.foldl (fun d n => readHeaders w n.sourceMap (d.warn (contentAsCodeBlock w .headers p n).2)) d).warnings := by
    intro l
    induction l with
    | nil => intro d h; exact h
    | cons n l ih => intro d h; rw [List.foldl_cons]; exact ih _ (quiet_readHeaders w _ (h.append (quiet_content _ _ _ _)))
  unfold headersResult
  simp only [Data.warn]
  exact ((hf _ _ (quiet_readHeaders w _ (h.append (quiet_signatureContent _ _ _)))).append (.map quiet_ignored)).append
    (.ite (.one rfl) .nil)

/-- What is said about the parsers of attributes and parameters: their warnings are their own. -/
def Own (w : World) : Prop := (∀ n a, ∀ x ∈ (w.attributes n a).2, ∃ t, x = .other t) ∧
  ∀ n a, ∀ x ∈ (w.parameters n a).2, ∃ t, x = .other t

theorem quiet_own {ws : List Warning} (h : ∀ x ∈ ws, ∃ t, x = .other t) : Quiet ws := by
  intro x hx; obtain ⟨t, rfl⟩ := h x hx; rfl

theorem quiet_refer (w : World) (c : SectionType) (s : Bytes) {d : Data} (h : Quiet d.warnings) : Quiet (refer w c s d).warnings := by
  unfold refer
  refine h.append ?_
  split
  · exact .nil
  · exact .ite (.one rfl) .nil

theorem quiet_signature {w : World} {n : Node} {ctx : List SectionType} {d d' : Data} (hq : Quiet d.warnings)
    (h : payloadSignature w n ⟨ctx, d⟩ = .ok d') : Quiet d'.warnings := by
  unfold payloadSignature at h
  simp only at h
  have hl : ∀ c, Quiet (payloadSignatureLine c n d).warnings := fun c =>
    (hq.append (.ite (.one rfl) .nil)).append (.ite (.one rfl) .nil)
  split at h
  · cases h; exact hl _
  · split at h
    · cases h; exact hl _
    · split at h
      · cases h; exact quiet_refer w _ _ (hl _)
      · split at h
        · cases h
        · cases h; exact (hl _).append (quiet_signatureContent _ _ _)

theorem quiet_description {w : World} {ctx : List SectionType} (l : List Node) : ∀ {d d' : Data},
    steps (fun n d => payloadDescription w n ⟨ctx, d⟩) l d = .ok d' → d'.warnings = d.warnings := by
  induction l with
  | nil => intro d d' h; rw [steps] at h; cases h; rfl
  | cons n l ih =>
    intro d d' h
    rw [steps] at h
    split at h
    · cases h
    · rename_i d₁ h1
      have := ih h
      unfold payloadDescription at h1
      simp only at h1
      split at h1
      · cases h1
      · simp only [Except.ok.injEq] at h1; rw [← h1] at this; exact this

theorem quiet_contents {w : World} {ctx : List SectionType} (l : List Node) : ∀ {d d' : Data}, Quiet d.warnings →
    steps (fun n d => payloadContent w n ⟨ctx, d⟩) l d = .ok d' → Quiet d'.warnings := by
  induction l with
  | nil => intro d d' hq h; rw [steps] at h; cases h; exact hq
  | cons n l ih =>
    intro d d' hq h
    rw [steps] at h
    split at h
    · cases h
    · rename_i d₁ h1
      refine ih ?_ h
      unfold payloadContent at h1
      simp only at h1
      have ha : ∀ c, Quiet (addContent w c n d).warnings := fun c => hq.append (quiet_content _ _ _ _)
      split at h1
      · cases h1; exact hq.append (.one rfl)
      · split at h1
        · cases h1; exact ha _
        · split at h1
          · cases h1; exact quiet_refer w _ _ hq
          · cases h1; exact ha _

theorem quiet_section {w : World} (hw : Own w) {context : SectionType} {outer : List SectionType} {n : Node} {last : SectionType}
    {d d' : Data} (hq : Quiet d.warnings) (h : sectionData w context outer n last d = .ok d') : Quiet d'.warnings := by
  by_cases hu : payloadNested n = .undefined
  · rw [sectionData_undefined _ _ hu] at h
    unfold payloadUnexpected at h
    split at h
    · unfold addDangling at h
      split at h
      · cases h
      · cases h
        exact (hq.append (quiet_possible _ _)).append (.ite .nil (.one rfl))
    · cases h; exact hq.append (.one (quiet_ignored n))
  · obtain ⟨sig, blocks, hp⟩ := read_of_nested hu
    unfold sectionData at h
    rw [(parts_iff.mp hp).2] at h
    rcases nested_cases n with hn' | hn' | hn' | hn' | hn' | hn'
    · rw [hn'] at h; cases h; exact quiet_headers w _ _ _ hq
    · rw [hn'] at h; cases h; exact (hq.append (.ite .nil (.one rfl))).append (quiet_asset _ _ _ _ _)
    · rw [hn'] at h; cases h; exact (hq.append (.ite .nil (.one rfl))).append (quiet_asset _ _ _ _ _)
    · rw [hn'] at h; cases h; exact hq.append (quiet_own (hw.1 _ _))
    · rw [hn'] at h
      simp only at h
      split at h
      · cases h; exact hq.append (.one rfl)
      · cases h; exact hq.append (quiet_own (hw.2 _ _))
    · exact absurd hn' hu

theorem quiet_loop {w : World} (hw : Own w) {context : SectionType} {outer : List SectionType} {l : List Node} : ∀ {last} {d d' : Data},
    Quiet d.warnings → loop (sectionData w context outer) payloadNested l last d = .ok d' → Quiet d'.warnings := by
  induction l with
  | nil => intro last d d' hq h; rw [loop] at h; cases h; exact hq
  | cons n l ih =>
    intro last d d' hq h
    obtain ⟨d₁, h1, h2⟩ := loop_cons h
    exact ih (quiet_section hw hq h1) h2

/-- The checks are made once, at the end, with the payload as it is. -/
theorem checks_last {w : World} (hw : Own w) {context : SectionType} {outer : List SectionType} {siblings : List Node} {i j : Nat}
    {n sig : Node} {blocks : List Node} {pd : PD Data} (hi : siblings[i]? = some n) (hp : Parts n sig blocks)
    (h : parsePayload w context outer siblings i = .ok (j, pd)) :
    ∃ ws, Quiet ws ∧ ((context = .request ∨ context = .requestBody) → pd.data.warnings = ws ++ checkRequest pd.data.payload) ∧
      ((context = .response ∨ context = .responseBody) → pd.data.warnings = ws ++ checkResponse pd.data.payload) := by
  obtain ⟨_, d₁, d₂, d₃, d₄, ⟨s1, s2, s3, s4⟩, hd⟩ := stages hi hp h
  have q1 := quiet_signature Quiet.nil s1
  have q2 : Quiet d₂.warnings := by rw [quiet_description _ s2]; exact q1
  have q3 := quiet_contents _ q2 s3
  have q4 := quiet_loop hw q3 s4
  refine ⟨d₄.warnings, q4, ?_, ?_⟩
  · rintro (rfl | rfl) <;> rw [hd] <;> rfl
  · rintro (rfl | rfl) <;> rw [hd] <;> rfl

theorem lastHeader_foldl (name : Bytes) (hs : List References.Header) : ∀ v,
    (∃ a b u, hs = a ++ (name, u) :: b ∧ (∀ h ∈ b, h.1 ≠ name) ∧
      hs.foldl (fun v h => if h.1 = name then h.2 else v) v = u) ∨
    ((∀ h ∈ hs, h.1 ≠ name) ∧ hs.foldl (fun v h => if h.1 = name then h.2 else v) v = v) := by
  induction hs with
  | nil => intro v; exact .inr ⟨by simp, rfl⟩
  | cons x hs ih =>
    intro v
    rw [List.foldl_cons]
    rcases ih (if x.1 = name then x.2 else v) with ⟨a, b, u, h1, h2, h3⟩ | ⟨h1, h2⟩
    · exact .inl ⟨x :: a, b, u, by rw [h1]; rfl, h2, h3⟩
    · by_cases hx : x.1 = name
      · left
        refine ⟨[], hs, x.2, ?_, h1, ?_⟩
        · rw [← hx]; rfl
        · rw [h2, if_pos hx]
      · right
        refine ⟨?_, by rw [h2, if_neg hx]⟩
        intro h hh
        rcases List.mem_cons.mp hh with rfl | hh
        · exact hx
        · exact h1 h hh

theorem headerValue_iff {hs : List References.Header} {name v : Bytes} : HeaderValue hs name v ↔ lastHeader name hs = v := by
  have uniq : ∀ v u, HeaderValue hs name v → HeaderValue hs name u → v = u := by
    rintro v u (⟨a, b, h1, h2⟩ | ⟨h1, rfl⟩) (⟨a', b', h3, h4⟩ | ⟨h3, rfl⟩)
    · rw [h1] at h3
      rcases List.append_eq_append_iff.mp h3 with ⟨z, e1, e2⟩ | ⟨z, e1, e2⟩
      · cases z with
        | nil => simp at e2; exact e2.1
        | cons c z =>
          simp only [List.cons_append, List.cons.injEq] at e2
          exact absurd rfl (h2 (name, u) (by rw [e2.2]; simp))
      · cases z with
        | nil => simp at e2; exact e2.1.symm
        | cons c z =>
          simp only [List.cons_append, List.cons.injEq] at e2
          exact absurd rfl (h4 (name, v) (by rw [e2.2]; simp))
    · exact absurd rfl (h3 (name, v) (by rw [h1]; simp))
    · exact absurd rfl (h1 (name, u) (by rw [h3]; simp))
    · rfl
  have hl : HeaderValue hs name (lastHeader name hs) := by
    unfold lastHeader HeaderValue
    rcases lastHeader_foldl name hs [] with ⟨a, b, u, h1, h2, h3⟩ | ⟨h1, h2⟩
    · exact .inl ⟨a, b, by rw [h3]; exact h1, h2⟩
    · exact .inr ⟨h1, h2⟩
  constructor
  · intro h; exact uniq _ _ hl h
  · rintro rfl; exact hl

/-- C81: a request gets a warning about its empty body exactly if it has no body and no attributes, does not wait for a model, and
has either no headers and no parameters at all or a `Content-Length` or `Transfer-Encoding` header with a value; these values are
those of the last such headers. -/
theorem C81_empty_request (w : World) (hw : Own w) (outer : List SectionType) (siblings : List Node) (i j : Nat) (n sig : Node)
    (blocks : List Node) (pd : PD Data) (nested : Bool) (hi : siblings[i]? = some n) (hp : Parts n sig blocks)
    (hn : (.request, nested, recognise.payloadType n) ∈ payloadTypes) (length encoding : Bytes)
    (h : parsePayload w (recognise.payloadType n) outer siblings i = .ok (j, pd)) :
    Warning.emptyBody length encoding ∈ pd.data.warnings ↔
      HeaderValue pd.data.payload.headers (str "Content-Length") length ∧
      HeaderValue pd.data.payload.headers (str "Transfer-Encoding") encoding ∧
      pd.data.payload.body = [] ∧ pd.data.payload.attributes = [] ∧ pd.data.payload.refState ≠ .pending ∧
      ((pd.data.payload.headers = [] ∧ pd.data.payload.parameters = []) ∨ length ≠ [] ∨ encoding ≠ []) := by
  obtain ⟨ws, hq, he⟩ := checks_last hw hi hp h
  have hc : pd.data.warnings = ws ++ checkRequest pd.data.payload := by
    apply he.1
    simp only [payloadTypes, List.mem_cons, Prod.mk.injEq, List.not_mem_nil, or_false, reduceCtorEq, false_and, true_and] at hn
    rcases hn with ⟨_, hn⟩ | ⟨_, hn⟩
    · exact .inl hn
    · exact .inr hn
  rw [hc, List.mem_append, headerValue_iff, headerValue_iff]
  have hnot : Warning.emptyBody length encoding ∉ ws := fun hm => by have := hq _ hm; cases this
  simp only [hnot, false_or]
  generalize pd.data.payload = p
  unfold checkRequest
  simp only [List.isEmpty_iff, Bool.and_eq_true, decide_eq_true_eq, ne_eq]
  by_cases h1 : p.body = [] ∧ p.attributes = [] ∧ ¬ p.refState = .pending
  · rw [if_pos ⟨⟨h1.1, h1.2.1⟩, h1.2.2⟩]
    by_cases h2 : p.headers = [] ∧ p.parameters = []
    · rw [if_pos h2]
      simp [h1, h2, eq_comm]
    · rw [if_neg h2]
      simp only [Bool.or_eq_true, Bool.not_eq_true', List.isEmpty_eq_false_iff, ne_eq]
      constructor
      · intro hm
        split at hm
        · rename_i h3
          simp only [List.mem_singleton, Warning.emptyBody.injEq] at hm
          obtain ⟨rfl, rfl⟩ := hm
          exact ⟨rfl, rfl, h1.1, h1.2.1, h1.2.2, .inr h3⟩
        · cases hm
      · rintro ⟨rfl, rfl, _, _, _, h3 | h3⟩
        · exact absurd h3 h2
        · rw [if_pos h3]; simp
  · rw [if_neg (fun hh => h1 ⟨hh.1.1, hh.1.2, hh.2⟩)]
    simp only [List.not_mem_nil, false_iff]
    rintro ⟨_, _, h3, h4, h5, _⟩
    exact h1 ⟨h3, h4, h5⟩

/-- C81: a response gets a warning that it must not have a body exactly if it has one, does not wait for a model, and its status
is 204, 304 or between 100 and 199. -/
theorem C81_body_not_allowed (w : World) (hw : Own w) (outer : List SectionType) (siblings : List Node) (i j : Nat) (n sig : Node)
    (blocks : List Node) (pd : PD Data) (nested : Bool) (hi : siblings[i]? = some n) (hp : Parts n sig blocks)
    (hn : (.response, nested, recognise.payloadType n) ∈ payloadTypes) (code : Nat) (x y z : UInt8) (after : Bytes)
    (hname : pd.data.payload.name = x :: y :: z :: after) (hdig : ∀ c ∈ [x, y, z], asc '0' ≤ c ∧ c ≤ asc '9')
    (hafter : ∀ c, after.head? = some c → ¬ (asc '0' ≤ c ∧ c ≤ asc '9'))
    (h : parsePayload w (recognise.payloadType n) outer siblings i = .ok (j, pd)) :
    Warning.bodyNotAllowed code ∈ pd.data.warnings ↔
      code = 100 * (x.toNat - 48) + 10 * (y.toNat - 48) + (z.toNat - 48) ∧ (code = 204 ∨ code = 304 ∨ (100 ≤ code ∧ code ≤ 199)) ∧
      pd.data.payload.body ≠ [] ∧ pd.data.payload.refState ≠ .pending := by
  obtain ⟨ws, hq, he⟩ := checks_last hw hi hp h
  have hc : pd.data.warnings = ws ++ checkResponse pd.data.payload := by
    apply he.2
    simp only [payloadTypes, List.mem_cons, Prod.mk.injEq, List.not_mem_nil, or_false, reduceCtorEq, false_and, true_and,
      false_or] at hn
    rcases hn with ⟨_, hn⟩ | ⟨_, hn⟩
    · exact .inl hn
    · exact .inr hn
  rw [hc, List.mem_append]
  have hnot : Warning.bodyNotAllowed code ∉ ws := fun hm => by have := hq _ hm; cases this
  simp only [hnot, false_or]
  have dig : ∀ c ∈ [x, y, z], Http.isDigit c = true := fun c hc => by
    simpa [Http.isDigit] using hdig c hc
  have ha : ∀ c, after.head? = some c → Http.isDigit c = false := by
    intro c hc
    have := hafter c hc
    rw [← Bool.not_eq_true]
    simpa [Http.isDigit] using this
  unfold checkResponse
  rw [hname]
  by_cases hpend : pd.data.payload.refState = .pending
  · simp [hpend, Http.checkResponse]
  · simp only [hpend, decide_false]
    rw [C47_response x y z (dig x (by simp)) (dig y (by simp)) (dig z (by simp)) after pd.data.payload.body ha _ rfl]
    by_cases hb : pd.data.payload.body ≠ [] ∧ (100 * (x.toNat - 48) + 10 * (y.toNat - 48) + (z.toNat - 48) = 204 ∨
        100 * (x.toNat - 48) + 10 * (y.toNat - 48) + (z.toNat - 48) = 304 ∨
        (100 ≤ 100 * (x.toNat - 48) + 10 * (y.toNat - 48) + (z.toNat - 48) ∧
          100 * (x.toNat - 48) + 10 * (y.toNat - 48) + (z.toNat - 48) ≤ 199))
    · rw [if_pos hb]
      simp only [List.mem_singleton, Warning.bodyNotAllowed.injEq]
      constructor
      · rintro rfl; exact ⟨rfl, hb.2, hb.1, hpend⟩
      · rintro ⟨h1, _⟩; exact h1
    · rw [if_neg hb]
      simp only [List.not_mem_nil, false_iff]
      rintro ⟨rfl, h2, h3, _⟩
      exact hb ⟨h3, h2⟩

/-! ## Cases -/

theorem own_plain : Own plainWorld := by
  constructor <;> intro _ _ _ h <;> cases h

example : shown (parsePayload plainWorld .requestBody [.action] [listItem [para "Request"]] 0) =
    some ([], [], [.emptyBody [] []]) ∧ (.request, false, recognise.payloadType (listItem [para "Request"])) ∈ payloadTypes := by
  decide +kernel

example : shown (parsePayload plainWorld .responseBody [.action] [listItem [para "Response 204", code "x"]] 0) =
    some (str "x", [], [.bodyNotAllowed 204]) := by
  decide +kernel

end Verif.Props
