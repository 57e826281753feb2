import Verif.Spec.References
import Verif.Proof.Text
import Mathlib.Data.List.Forall2
import Mathlib.Data.List.Induction

namespace Verif.References
open Verif Verif.Spec.References

/-! ## Passes over lists -/

theorem thread_spec {α β μ : Type} {f : α → μ → β × μ} {g : α → β} {P : μ → Prop}
    {bad : α → Prop} (h1 : ∀ a m, (f a m).1 = g a) (h2 : ∀ a m, P (f a m).2 ↔ P m ∨ bad a) :
    ∀ as m, (thread f as m).1 = as.map g ∧
      (P (thread f as m).2 ↔ P m ∨ ∃ a ∈ as, bad a) := by
  intro as
  induction as with
  | nil => intro m; simp [thread]
  | cons a as ih =>
    intro m
    have := ih (f a m).2
    simp only [thread, List.map_cons, h1, this.1, this.2, h2, true_and]
    simp only [List.mem_cons, exists_eq_or_imp]
    rw [or_assoc]

theorem content_spec {α β μ : Type} {f : α → μ → β × μ} {g : α → β} {P : μ → Prop}
    {bad : α → Prop} (h1 : ∀ a m, (f a m).1 = g a) (h2 : ∀ a m, P (f a m).2 ↔ P m ∨ bad a) :
    ∃ g' : Content α → Content β, ∃ bad' : Content α → Prop,
      (∀ c m, (Content.through f c m).1 = g' c) ∧
      (∀ c m, P (Content.through f c m).2 ↔ P m ∨ bad' c) ∧
      (∀ r, g' (.resource r) = .resource (g r)) ∧ g' .other = .other ∧
      (∀ r, bad' (.resource r) ↔ bad r) ∧ (bad' .other ↔ False) := by
  refine ⟨fun | .resource r => .resource (g r) | .other => .other,
    fun | .resource r => bad r | .other => False, ?_, ?_, fun _ => rfl, rfl, fun _ => Iff.rfl,
    Iff.rfl⟩
  · intro c m
    cases c <;> simp [Content.through, h1]
  · intro c m
    cases c <;> simp [Content.through, h2]

/-! ## Resolving -/

/-- The payload after resolution. -/
def resolved (t : Table) (p : Payload) : Payload := (resolvePayload t p none).1

/-- Its model is missing. -/
def Missing (t : Table) (p : Payload) : Prop :=
  p.refId ≠ [] ∧ p.refState = .pending ∧ t.find p.refId = none

theorem resolvePayload_fst (t : Table) (p : Payload) (e : Option ModelError) :
    (resolvePayload t p e).1 = resolved t p := by
  unfold resolved resolvePayload
  split
  · split <;> rfl
  · rfl

theorem resolvePayload_snd (t : Table) (p : Payload) (e : Option ModelError) :
    (resolvePayload t p e).2.isSome ↔ e.isSome ∨ Missing t p := by
  unfold resolvePayload Missing
  split
  · rename_i h
    simp only [Bool.and_eq_true, Bool.not_eq_true', List.isEmpty_eq_false_iff, beq_iff_eq] at h
    split
    · rename_i hn; simp [h.1, h.2, hn]
    · rename_i m hn; simp [hn]
  · rename_i h
    simp only [Bool.and_eq_true, Bool.not_eq_true', List.isEmpty_eq_false_iff, beq_iff_eq,
      not_and] at h
    constructor
    · exact .inl
    · rintro (h' | ⟨h1, h2, _⟩)
      · exact h'
      · exact absurd h2 (h h1)

theorem example_spec (t : Table) (x : Example) (e : Option ModelError) :
    ofExample (resolveExample t x e).1 = (ofExample x).map (resolved t) ∧
      ((resolveExample t x e).2.isSome ↔ e.isSome ∨ ∃ p ∈ ofExample x, Missing t p) := by
  have h := thread_spec (P := fun e : Option ModelError => e.isSome = true)
    (resolvePayload_fst t) (resolvePayload_snd t)
  unfold resolveExample ofExample
  refine ⟨by simp only [(h x.requests e).1, (h x.responses _).1, List.map_append], ?_⟩
  rw [(h x.responses _).2, (h x.requests e).2]
  simp only [List.mem_append, or_assoc]
  constructor
  · rintro (h | ⟨p, hp, h⟩ | ⟨p, hp, h⟩)
    · exact .inl h
    · exact .inr ⟨p, .inl hp, h⟩
    · exact .inr ⟨p, .inr hp, h⟩
  · rintro (h | ⟨p, hp | hp, h⟩)
    · exact .inl h
    · exact .inr (.inl ⟨p, hp, h⟩)
    · exact .inr (.inr ⟨p, hp, h⟩)

/-- A pass, seen through the payloads. -/
theorem thread_payloads {α β : Type} {f : α → Option ModelError → β × Option ModelError}
    {src : α → List Payload} {dst : β → List Payload} {g : Payload → Payload}
    {bad : Payload → Prop}
    (h : ∀ a e, dst (f a e).1 = (src a).map g ∧
      ((f a e).2.isSome ↔ e.isSome ∨ ∃ p ∈ src a, bad p)) :
    ∀ as e, (thread f as e).1.flatMap dst = (as.flatMap src).map g ∧
      ((thread f as e).2.isSome ↔ e.isSome ∨ ∃ p ∈ as.flatMap src, bad p) := by
  intro as
  induction as with
  | nil => intro e; simp [thread]
  | cons a as ih =>
    intro e
    have h1 := ih (f a e).2
    have h2 := h a e
    simp only [thread, List.flatMap_cons, List.map_append, h1.1, h2.1, h1.2, h2.2, true_and,
      List.mem_append, or_assoc]
    constructor
    · rintro (h | ⟨p, hp, h⟩ | ⟨p, hp, h⟩)
      · exact .inl h
      · exact .inr ⟨p, .inl hp, h⟩
      · exact .inr ⟨p, .inr hp, h⟩
    · rintro (h | ⟨p, hp | hp, h⟩)
      · exact .inl h
      · exact .inr (.inl ⟨p, hp, h⟩)
      · exact .inr (.inr ⟨p, hp, h⟩)

theorem content_payloads {α β : Type} {f : α → Option ModelError → β × Option ModelError}
    {src : α → List Payload} {dst : β → List Payload} {g : Payload → Payload}
    {bad : Payload → Prop}
    (h : ∀ a e, dst (f a e).1 = (src a).map g ∧
      ((f a e).2.isSome ↔ e.isSome ∨ ∃ p ∈ src a, bad p)) (c : Content α)
    (e : Option ModelError) :
    ofContent dst (Content.through f c e).1 = (ofContent src c).map g ∧
      ((Content.through f c e).2.isSome ↔ e.isSome ∨ ∃ p ∈ ofContent src c, bad p) := by
  cases c with
  | resource r => exact h r e
  | other => simp [Content.through, ofContent]

theorem element_payloads {α β : Type} {f : α → Option ModelError → β × Option ModelError}
    {src : α → List Payload} {dst : β → List Payload} {g : Payload → Payload}
    {bad : Payload → Prop}
    (h : ∀ a e, dst (f a e).1 = (src a).map g ∧
      ((f a e).2.isSome ↔ e.isSome ∨ ∃ p ∈ src a, bad p)) (x : Element α)
    (e : Option ModelError) :
    ofElement dst (Element.through f x e).1 = (ofElement src x).map g ∧
      ((Element.through f x e).2.isSome ↔ e.isSome ∨ ∃ p ∈ ofElement src x, bad p) := by
  cases x with
  | category es => exact thread_payloads (content_payloads h) es e
  | content c => exact content_payloads h c e

theorem resolveElements_spec (t : Table) (es : List (Element Resource)) (e : Option ModelError) :
    payloads (resolveElements t es e).1 = (payloads es).map (resolved t) ∧
      ((resolveElements t es e).2.isSome ↔ e.isSome ∨ ∃ p ∈ payloads es, Missing t p) := by
  have ha : ∀ a e, ofAction (resolveAction t a e).1 = (ofAction a).map (resolved t) ∧
      ((resolveAction t a e).2.isSome ↔ e.isSome ∨ ∃ p ∈ ofAction a, Missing t p) :=
    fun a e => thread_payloads (example_spec t) a.examples e
  have hr : ∀ r e, ofResource (resolveResource t r e).1 = (ofResource r).map (resolved t) ∧
      ((resolveResource t r e).2.isSome ↔ e.isSome ∨ ∃ p ∈ ofResource r, Missing t p) :=
    fun r e => thread_payloads ha r.actions e
  exact thread_payloads (element_payloads hr) es e

/-! ## The table -/

/-- `T` has all entries of `t`, and others after them. -/
def Ext (t T : Table) : Prop := ∃ u, T = t ++ u

theorem Ext.refl (t : Table) : Ext t t := ⟨[], by simp⟩

theorem Ext.trans {a b c : Table} (h : Ext a b) (h' : Ext b c) : Ext a c := by
  obtain ⟨u, rfl⟩ := h
  obtain ⟨v, rfl⟩ := h'
  exact ⟨u ++ v, by simp⟩

theorem find_append (t u : Table) (id : Bytes) :
    Table.find (t ++ u) id = (t.find id).or (u.find id) := by
  unfold Table.find
  induction t with
  | nil => simp
  | cons x t ih =>
    obtain ⟨k, v⟩ := x
    simp only [List.cons_append, List.lookup_cons]
    cases id == k <;> simp [ih]

theorem Ext.find {t T : Table} (h : Ext t T) {id : Bytes} {m : Payload} (hm : t.find id = some m) :
    T.find id = some m := by
  obtain ⟨u, rfl⟩ := h
  rw [find_append, hm]; rfl

theorem processModel_ext (n : Bytes) (s : Source) (m : Memory) :
    Ext m.table (processModel n s m).table := by
  unfold processModel
  dsimp only
  split
  · exact ⟨_, rfl⟩
  · exact Ext.refl _

/-! ## Reading -/

/-- Headers put in front. -/
def injected (hs : List Header) (p : Payload) : Payload := { p with headers := hs ++ p.headers }

theorem injected_nil (p : Payload) : injected [] p = p := rfl

theorem injected_injected (a b : List Header) (p : Payload) :
    injected a (injected b p) = injected (a ++ b) p := by
  simp [injected]

theorem onLast_eq (f : Example → Example) (es : List Example) (e : Example) :
    onLast f (es ++ [e]) = es ++ [f e] := by
  induction es with
  | nil => rfl
  | cons x es ih =>
    cases es with
    | nil => rfl
    | cons y es => simp only [List.cons_append, onLast] at ih ⊢; rw [ih]

theorem ofExample_add_request (e : Example) (p : Payload) (h : e.responses = []) :
    ofExample { e with requests := e.requests ++ [p] } = ofExample e ++ [p] := by
  simp [ofExample, h]

theorem ofExample_add_response (e : Example) (p : Payload) :
    ofExample { e with responses := e.responses ++ [p] } = ofExample e ++ [p] := by
  simp [ofExample]

theorem list_snoc {α : Type} (l : List α) : l = [] ∨ ∃ i x, l = i ++ [x] := by
  cases l using List.reverseRecOn with
  | nil => exact .inl rfl
  | append_singleton i x => exact .inr ⟨i, x, rfl⟩

theorem addPayload_payloads (side : Side) (p : Payload) (es : List Example) :
    (addPayload side p es).flatMap ofExample = es.flatMap ofExample ++ [p] := by
  rcases list_snoc es with rfl | ⟨i, e, rfl⟩
  · cases side <;> simp [addPayload, onLast, ofExample]
  · cases side with
    | request =>
      have hl : (i ++ [e]).getLast? = some e := by simp
      simp only [addPayload, hl]
      split
      · rename_i h
        rw [onLast_eq]
        simp only [List.flatMap_append, List.flatMap_cons, List.flatMap_nil, List.append_nil]
        simp [ofExample]
      · rename_i h
        have h : e.responses = [] := by simpa using h
        rw [onLast_eq]
        simp only [List.flatMap_append, List.flatMap_cons, List.flatMap_nil, List.append_nil]
        rw [ofExample_add_request e p h, List.append_assoc]
    | response =>
      simp only [addPayload]
      rw [if_neg (by simp), onLast_eq]
      simp only [List.flatMap_append, List.flatMap_cons, List.flatMap_nil, List.append_nil]
      rw [ofExample_add_response, List.append_assoc]

theorem foldl_payloads (t : Table) (ps : List (Side × Source)) (es : List Example) :
    (ps.foldl (fun es sp => addPayload sp.1 (parsePayload t sp.2) es) es).flatMap ofExample =
      es.flatMap ofExample ++ ps.map fun sp => parsePayload t sp.2 := by
  induction ps generalizing es with
  | nil => simp
  | cons sp ps ih => simp [ih, addPayload_payloads]

theorem inject_payloads (hs : List Header) (es : List Example) :
    (injectHeaders hs es).flatMap ofExample = (es.flatMap ofExample).map (injected hs) := by
  induction es with
  | nil => rfl
  | cons e es ih =>
    simp only [injectHeaders, List.map_cons, List.flatMap_cons, List.map_append] at ih ⊢
    rw [ih]
    simp only [ofExample, List.map_append]
    rfl

theorem parseAction_payloads (t : Table) (a : ActionSource) :
    ofAction (parseAction t a) =
      (a.payloads.map (·.2)).map fun s => injected a.headers (parsePayload t s) := by
  unfold ofAction parseAction
  dsimp only
  split
  · rw [inject_payloads, foldl_payloads]
    simp
  · rename_i h
    simp only [Bool.not_eq_true', Bool.not_eq_false, List.isEmpty_iff] at h
    rw [foldl_payloads, h]
    simp [injected]

/-- What is known of a payload before references are resolved: it was read with a part of the
table, and had headers put in front. -/
def Partly (T : Table) (s : List Header × Source) (p : Payload) : Prop :=
  ∃ t, Ext t T ∧ p = injected s.1 (parsePayload t s.2)

/-- The sources with the deprecated headers that concern them. -/
def withHeaders (hs : List Header) : Section → List (List Header × Source)
  | .model _ => []
  | .action a => a.payloads.map fun sp => (hs ++ a.headers, sp.2)

def allSources (doc : List (Element ResourceSource)) : List (List Header × Source) :=
  doc.flatMap (ofElement fun r => r.sections.flatMap (withHeaders r.headers))

theorem sections_payloads (n : Bytes) (hs : List Header) (ss : List Section) :
    ∀ m, Ext m.table (parseSections n ss m).2.table ∧
      ∀ T, Ext (parseSections n ss m).2.table T →
        List.Forall₂ (Partly T) (ss.flatMap (withHeaders hs))
          (((parseSections n ss m).1.flatMap ofAction).map (injected hs)) := by
  induction ss with
  | nil => intro m; exact ⟨Ext.refl _, fun T _ => .nil⟩
  | cons s ss ih =>
    intro m
    cases s with
    | model s =>
      have := ih (processModel n s m)
      simp only [parseSections, List.flatMap_cons, withHeaders, List.nil_append]
      exact ⟨(processModel_ext n s m).trans this.1, this.2⟩
    | action a =>
      have := ih m
      simp only [parseSections, List.flatMap_cons, withHeaders, List.map_append]
      refine ⟨this.1, fun T hT => ?_⟩
      refine List.rel_append (R := Partly T) ?_ (this.2 T hT)
      rw [parseAction_payloads]
      have hm := this.1.trans hT
      generalize a.payloads = ps
      induction ps with
      | nil => exact .nil
      | cons sp ps ih' =>
        simp only [List.map_cons]
        exact .cons ⟨m.table, hm, injected_injected _ _ _⟩ ih'

theorem resource_payloads (r : ResourceSource) (m : Memory) :
    Ext m.table (parseResource r m).2.table ∧
      ∀ T, Ext (parseResource r m).2.table T →
        List.Forall₂ (Partly T) (r.sections.flatMap (withHeaders r.headers))
          (ofResource (parseResource r m).1) := by
  have h := sections_payloads r.name r.headers r.sections m
  unfold parseResource
  refine ⟨h.1, fun T hT => ?_⟩
  have := h.2 T hT
  unfold ofResource
  dsimp only
  split
  · convert this using 1
    generalize (parseSections r.name r.sections m).1 = as
    induction as with
    | nil => rfl
    | cons a as ih =>
      simp only [List.map_cons, List.flatMap_cons, List.map_append]
      rw [← ih]
      congr 1
      exact inject_payloads _ _
  · rename_i h
    simp only [Bool.not_eq_true', Bool.not_eq_false, List.isEmpty_iff] at h
    rw [h] at this ⊢
    have hid : injected ([] : List Header) = id := by funext p; rfl
    rw [hid, List.map_id] at this
    exact this

theorem thread_partly {α β γ : Type} {R : Table → γ → Payload → Prop} {f : α → Memory → β × Memory}
    {src : α → List γ} {dst : β → List Payload}
    (h : ∀ a m, Ext m.table (f a m).2.table ∧ ∀ T, Ext (f a m).2.table T →
      List.Forall₂ (R T) (src a) (dst (f a m).1)) :
    ∀ as m, Ext m.table (thread f as m).2.table ∧ ∀ T, Ext (thread f as m).2.table T →
      List.Forall₂ (R T) (as.flatMap src) ((thread f as m).1.flatMap dst) := by
  intro as
  induction as with
  | nil => intro m; exact ⟨Ext.refl _, fun T _ => .nil⟩
  | cons a as ih =>
    intro m
    have h1 := ih (f a m).2
    have h2 := h a m
    simp only [thread, List.flatMap_cons]
    exact ⟨h2.1.trans h1.1, fun T hT => List.rel_append (h2.2 T (h1.1.trans hT)) (h1.2 T hT)⟩

theorem content_partly {α β γ : Type} {R : Table → γ → Payload → Prop}
    {f : α → Memory → β × Memory} {src : α → List γ} {dst : β → List Payload}
    (h : ∀ a m, Ext m.table (f a m).2.table ∧ ∀ T, Ext (f a m).2.table T →
      List.Forall₂ (R T) (src a) (dst (f a m).1)) (c : Content α) (m : Memory) :
    Ext m.table (Content.through f c m).2.table ∧ ∀ T, Ext (Content.through f c m).2.table T →
      List.Forall₂ (R T) (ofContent src c) (ofContent dst (Content.through f c m).1) := by
  cases c with
  | resource r => exact h r m
  | other => exact ⟨Ext.refl _, fun T _ => .nil⟩

theorem element_partly {α β γ : Type} {R : Table → γ → Payload → Prop}
    {f : α → Memory → β × Memory} {src : α → List γ} {dst : β → List Payload}
    (h : ∀ a m, Ext m.table (f a m).2.table ∧ ∀ T, Ext (f a m).2.table T →
      List.Forall₂ (R T) (src a) (dst (f a m).1)) (x : Element α) (m : Memory) :
    Ext m.table (Element.through f x m).2.table ∧ ∀ T, Ext (Element.through f x m).2.table T →
      List.Forall₂ (R T) (ofElement src x) (ofElement dst (Element.through f x m).1) := by
  cases x with
  | category es => exact thread_partly (content_partly h) es m
  | content c => exact content_partly h c m

theorem parseElements_partly (doc : List (Element ResourceSource)) :
    List.Forall₂ (Partly (parseElements doc).2.table) (allSources doc)
      (payloads (parseElements doc).1) :=
  (thread_partly (element_partly resource_payloads) doc {}).2 _ (Ext.refl _)

theorem allSources_snd (doc : List (Element ResourceSource)) :
    (allSources doc).map (·.2) = sources doc := by
  have hs : ∀ hs ss, ((ss : List Section).flatMap (withHeaders hs)).map (·.2) =
      ss.flatMap actionSources := by
    intro hs ss
    induction ss with
    | nil => rfl
    | cons s ss ih =>
      simp only [List.flatMap_cons, List.map_append, ih]
      congr 1
      cases s <;> simp [withHeaders, actionSources]
  have hc : ∀ c : Content ResourceSource,
      (ofContent (fun r => r.sections.flatMap (withHeaders r.headers)) c).map (·.2) =
        ofContent (fun r => r.sections.flatMap actionSources) c := by
    intro c
    cases c with
    | resource r => exact hs _ _
    | other => rfl
  have he : ∀ x : Element ResourceSource,
      (ofElement (fun r => r.sections.flatMap (withHeaders r.headers)) x).map (·.2) =
        ofElement (fun r => r.sections.flatMap actionSources) x := by
    intro x
    cases x with
    | category es =>
      simp only [ofElement]
      induction es with
      | nil => rfl
      | cons c es ih => simp only [List.flatMap_cons, List.map_append, ih, hc]
    | content c => exact hc c
  unfold allSources sources
  induction doc with
  | nil => rfl
  | cons x doc ih => simp only [List.flatMap_cons, List.map_append, ih, he]

/-! ## The outcome -/

theorem assign_filled (own m : Payload) (id : Bytes) (st : State) :
    Filled own m (assignReferred m { own with refId := id, refState := st }) where
  name := rfl
  attributes := rfl
  description := rfl
  parameters := rfl
  body := rfl
  schema := rfl
  headers := by
    simp only [assignReferred, contentType]
    by_cases h : ∃ h ∈ m.headers, h.1 = str "Content-Type"
    · have : (m.headers.any fun h => h.1 == str "Content-Type") = true := by
        obtain ⟨x, hx, he⟩ := h
        exact List.any_eq_true.2 ⟨x, hx, by simp [he]⟩
      simp only [this, if_pos h, Bool.not_true, Bool.and_false, Bool.false_eq_true, if_false]
    · have : (m.headers.any fun h => h.1 == str "Content-Type") = false := by
        rw [Bool.eq_false_iff]
        intro ht
        obtain ⟨x, hx, he⟩ := List.any_eq_true.1 ht
        exact h ⟨x, hx, by simpa using he⟩
      simp only [this, if_neg h, Bool.not_false, Bool.and_true]
      cases own.headers <;> simp

/-- Once resolved, a payload read with part of the table means what it says. -/
theorem resolved_meaning {T t : Table} (h : Ext t T) (s : Source)
    (hown : s.own.refId = []) (hid : modelReference s.text ≠ some []) :
    Meaning T.find s (resolved T (parsePayload t s)) := by
  unfold Meaning parsePayload
  cases hr : modelReference s.text with
  | none =>
    simp [resolved, resolvePayload, hown]
  | some id =>
    have hne : id ≠ [] := fun h0 => hid (by rw [hr, h0])
    simp only [refer]
    cases ht : t.find id with
    | some m =>
      have hT := h.find ht
      simp only [hT]
      have : resolved T (assignReferred m { s.own with refId := id, refState := .resolved }) =
          assignReferred m { s.own with refId := id, refState := .resolved } := by
        simp [resolved, resolvePayload, assignReferred]
      rw [this]
      exact ⟨assign_filled _ _ _ _, rfl, rfl⟩
    | none =>
      cases hT : T.find id with
      | some m =>
        have : resolved T { s.own with refId := id, refState := .pending } =
            assignReferred m { s.own with refId := id, refState := .resolved } := by
          simp [resolved, resolvePayload, hne, hT]
        simp only [this]
        exact ⟨assign_filled _ _ _ _, rfl, rfl⟩
      | none =>
        simp [resolved, resolvePayload, hne, hT]

/-- Whatever it was, no payload with a reference is pending after resolution. -/
theorem resolved_settled (T : Table) (p : Payload) (h : (resolved T p).refId ≠ []) :
    (resolved T p).refState ≠ .pending := by
  unfold resolved resolvePayload at *
  split at h
  · rename_i hc
    split at h
    · rename_i hn
      simp [hc, hn]
    · rename_i m hn
      simp [hc, hn, assignReferred]
  · rename_i hc
    simp only [hc]
    intro hp
    apply hc
    simp only [Bool.false_eq_true, if_false] at hp
    simp [h, hp]

theorem parse_payloads (doc : List (Element ResourceSource)) :
    List.Forall₂ (fun s p => ∃ t, Ext t (parse doc).table ∧
        p = resolved (parse doc).table (injected s.1 (parsePayload t s.2)))
      (allSources doc) (payloads (parse doc).elements) := by
  unfold parse
  dsimp only
  rw [(resolveElements_spec _ _ _).1, List.forall₂_map_right_iff]
  exact (parseElements_partly doc).imp fun s p ⟨t, ht, hp⟩ => ⟨t, ht, by rw [hp]⟩

/-! ## The table is the list of first definitions -/

theorem parsePayload_name (t : Table) (s : Source) : (parsePayload t s).name = s.own.name := by
  unfold parsePayload refer
  split
  · rfl
  · split <;> rfl

theorem modelPayload_name (n : Bytes) (t : Table) (s : Source) :
    (modelPayload n t s).name = modelName (n, s) := by
  unfold modelPayload modelName
  have h := parsePayload_name t s
  dsimp only
  rw [h]
  by_cases hs : s.own.name = []
  · by_cases hn : n = []
    · simp [hs, hn, h]
    · simp [hs, hn]
  · simp [hs, h]

/-- The models read one after the other. -/
def readModels (ms : List (Bytes × Source)) (m : Memory) : Memory :=
  ms.foldl (fun m x => processModel x.1 x.2 m) m

theorem readModels_append (a b : List (Bytes × Source)) (m : Memory) :
    readModels (a ++ b) m = readModels b (readModels a m) := by
  simp [readModels]

theorem parseSections_memory (n : Bytes) (ss : List Section) :
    ∀ m, (parseSections n ss m).2 = readModels (ss.flatMap (sectionModels n)) m := by
  induction ss with
  | nil => intro m; rfl
  | cons s ss ih =>
    intro m
    cases s with
    | model s => simp only [parseSections, ih]; rfl
    | action a => simp only [parseSections, ih]; rfl

theorem thread_memory {α β : Type} {f : α → Memory → β × Memory} {g : α → List (Bytes × Source)}
    (h : ∀ a m, (f a m).2 = readModels (g a) m) :
    ∀ as m, (thread f as m).2 = readModels (as.flatMap g) m := by
  intro as
  induction as with
  | nil => intro m; rfl
  | cons a as ih =>
    intro m
    simp only [thread, ih, h, List.flatMap_cons, readModels_append]

theorem content_memory {α β : Type} {f : α → Memory → β × Memory} {g : α → List (Bytes × Source)}
    (h : ∀ a m, (f a m).2 = readModels (g a) m) (c : Content α) (m : Memory) :
    (Content.through f c m).2 = readModels (ofContent g c) m := by
  cases c with
  | resource r => exact h r m
  | other => rfl

theorem element_memory {α β : Type} {f : α → Memory → β × Memory} {g : α → List (Bytes × Source)}
    (h : ∀ a m, (f a m).2 = readModels (g a) m) (x : Element α) (m : Memory) :
    (Element.through f x m).2 = readModels (ofElement g x) m := by
  cases x with
  | category es => exact thread_memory (content_memory h) es m
  | content c => exact content_memory h c m

theorem parseElements_memory (doc : List (Element ResourceSource)) :
    (parseElements doc).2 = readModels (modelSources doc) {} := by
  exact thread_memory (element_memory fun r m => parseSections_memory r.name r.sections m) doc {}

theorem find_isSome_iff (t : Table) (id : Bytes) : (t.find id).isSome ↔ id ∈ t.map (·.1) := by
  unfold Table.find
  induction t with
  | nil => simp
  | cons x t ih =>
    obtain ⟨k, v⟩ := x
    simp only [List.lookup_cons, List.map_cons, List.mem_cons]
    by_cases h : id = k
    · simp [h]
    · have : (id == k) = false := by simpa using h
      simp [this, h, ih]

/-- The names in the table, and whether there is an error, do not depend on references. -/
theorem readModels_spec (ms : List (Bytes × Source)) : ∀ m,
    (∀ id, id ∈ (readModels ms m).table.map (·.1) ↔
      id ∈ m.table.map (·.1) ∨ id ∈ ms.map modelName) ∧
    ((readModels ms m).error.isSome ↔ m.error.isSome ∨ [] ∈ ms.map modelName ∨
      ¬ (ms.map modelName).Nodup ∨ ∃ id ∈ ms.map modelName, id ∈ m.table.map (·.1)) := by
  induction ms with
  | nil => intro m; simp [readModels]
  | cons x ms ih =>
    intro m
    obtain ⟨n, s⟩ := x
    have hstep : readModels ((n, s) :: ms) m = readModels ms (processModel n s m) := rfl
    rw [hstep]
    have h := ih (processModel n s m)
    have hname := modelPayload_name n m.table s
    have hf := find_isSome_iff m.table (modelName (n, s))
    have hkeys : ∀ id, id ∈ (processModel n s m).table.map (·.1) ↔
        id ∈ m.table.map (·.1) ∨ id = modelName (n, s) := by
      intro id
      unfold processModel
      dsimp only
      rw [hname]
      split
      · simp only [List.map_append, List.mem_append, List.map_cons, List.map_nil,
          List.mem_singleton]
      · rename_i p hp
        rw [hp] at hf
        constructor
        · exact .inl
        · rintro (h | rfl)
          · exact h
          · exact hf.1 rfl
    have herr : (processModel n s m).error.isSome ↔ m.error.isSome ∨ modelName (n, s) = [] ∨
        modelName (n, s) ∈ m.table.map (·.1) := by
      unfold processModel
      dsimp only
      rw [hname]
      split
      · rename_i hp
        rw [hp] at hf
        have hno : modelName (n, s) ∉ m.table.map (·.1) := fun h => by simpa using hf.2 h
        dsimp only
        split
        · rename_i he
          simp only [List.isEmpty_iff] at he
          simp [he]
        · rename_i he
          simp only [List.isEmpty_iff] at he
          simp only [he, hno, or_false]
      · rename_i p hp
        rw [hp] at hf
        have := hf.1 rfl
        simp [this]
    refine ⟨fun id => ?_, ?_⟩
    · rw [h.1, hkeys]
      simp only [List.map_cons, List.mem_cons]
      rw [or_assoc]
    · rw [h.2, herr]
      simp only [hkeys, List.map_cons, List.mem_cons, List.nodup_cons]
      clear h ih hkeys herr hf hname hstep
      generalize modelName (n, s) = nm
      generalize List.map modelName ms = nms
      generalize List.map (·.1) m.table = ks
      constructor
      · rintro ((h1 | h1 | h1) | h1 | h1 | ⟨id, h1, h2 | h2⟩)
        · exact .inl h1
        · exact .inr (.inl (.inl h1.symm))
        · exact .inr (.inr (.inr ⟨_, .inl rfl, h1⟩))
        · exact .inr (.inl (.inr h1))
        · exact .inr (.inr (.inl fun h' => h1 h'.2))
        · exact .inr (.inr (.inr ⟨id, .inr h1, h2⟩))
        · exact .inr (.inr (.inl fun h' => h'.1 (h2 ▸ h1)))
      · rintro (h1 | (h1 | h1) | h1 | ⟨id, h1 | h1, h2⟩)
        · exact .inl (.inl h1)
        · exact .inl (.inr (.inl h1.symm))
        · exact .inr (.inl h1)
        · by_cases hm : nm ∈ nms
          · exact .inr (.inr (.inr ⟨_, hm, .inr rfl⟩))
          · exact .inr (.inr (.inl fun h' => h1 ⟨hm, h'⟩))
        · subst h1
          exact .inl (.inr (.inr h2))
        · exact .inr (.inr (.inr ⟨id, h1, .inl h2⟩))

theorem modelPayload_plain (t : Table) (x : Bytes × Source) (h : modelReference x.2.text = none) :
    modelPayload x.1 t x.2 = modelDefinition x := by
  obtain ⟨n, s⟩ := x
  simp only [modelPayload, parsePayload, h, modelDefinition, modelName]
  by_cases hs : s.own.name = []
  · by_cases hn : n = []
    · simp only [hs, hn, List.isEmpty_nil, Bool.not_true, Bool.and_false, Bool.false_eq_true,
        if_false, if_true]
    · simp [hs, hn]
  · simp [hs]

theorem readModels_find (ms : List (Bytes × Source))
    (hp : ∀ x ∈ ms, modelReference x.2.text = none) (id : Bytes) : ∀ m,
    (readModels ms m).table.find id =
      (m.table.find id).or ((ms.find? fun x => modelName x = id).map modelDefinition) := by
  induction ms with
  | nil => intro m; simp [readModels]
  | cons x ms ih =>
    intro m
    have hstep : readModels (x :: ms) m = readModels ms (processModel x.1 x.2 m) := rfl
    rw [hstep, ih (fun y hy => hp y (by simp [hy]))]
    have hpl := modelPayload_plain m.table x (hp x (by simp))
    have hn : (modelDefinition x).name = modelName x := rfl
    have htab : (processModel x.1 x.2 m).table.find id =
        (m.table.find id).or (if modelName x = id then some (modelDefinition x) else none) := by
      unfold processModel
      dsimp only
      rw [hpl, hn]
      split
      · rename_i hnone
        dsimp only
        rw [find_append]
        congr 1
        unfold Table.find
        simp only [List.lookup_cons, List.lookup_nil]
        by_cases he : modelName x = id
        · simp [he]
        · have : (id == modelName x) = false := by simpa using fun h => he h.symm
          simp [this, he]
      · rename_i p hsome
        dsimp only
        by_cases he : modelName x = id
        · rw [← he, hsome]; rfl
        · simp [he]
    rw [htab, List.find?_cons]
    by_cases he : modelName x = id
    · simp only [he, if_true, decide_true]
      cases m.table.find id <;> simp
    · simp [he]

theorem noHeaders_allSources {doc : List (Element ResourceSource)} (h : NoDeprecatedHeaders doc) :
    ∀ s ∈ allSources doc, s.1 = [] := by
  intro s hs
  unfold NoDeprecatedHeaders at h
  rw [List.flatMap_eq_nil_iff] at h
  have hr : ∀ r : ResourceSource, r.headers ++ r.sections.flatMap sectionHeaders = [] →
      ∀ s ∈ r.sections.flatMap (withHeaders r.headers), s.1 = [] := by
    intro r hr s hs
    simp only [List.append_eq_nil_iff, List.flatMap_eq_nil_iff] at hr
    obtain ⟨x, hx, hs⟩ := List.mem_flatMap.1 hs
    have := hr.2 x hx
    cases x with
    | model _ => simp [withHeaders] at hs
    | action a =>
      simp only [sectionHeaders] at this
      simp only [withHeaders, List.mem_map] at hs
      obtain ⟨sp, _, rfl⟩ := hs
      simp [hr.1, this]
  obtain ⟨x, hx, hs⟩ := List.mem_flatMap.1 hs
  have hx' := h x hx
  have hc : ∀ c : Content ResourceSource,
      ofContent (fun r => r.headers ++ r.sections.flatMap sectionHeaders) c = [] →
      ∀ s ∈ ofContent (fun r => r.sections.flatMap (withHeaders r.headers)) c, s.1 = [] := by
    intro c hc s hs
    cases c with
    | resource r => exact hr r hc s hs
    | other => simp [ofContent] at hs
  cases x with
  | category es =>
    simp only [ofElement] at hx' hs
    rw [List.flatMap_eq_nil_iff] at hx'
    obtain ⟨c, hcm, hs⟩ := List.mem_flatMap.1 hs
    exact hc c (hx' c hcm) s hs
  | content c => exact hc c hx' s hs

theorem missing_iff {t T : Table} (h : Ext t T) (hs : List Header) (s : Source)
    (hown : s.own.refId = []) :
    Missing T (injected hs (parsePayload t s)) ↔
      ∃ id, id ≠ [] ∧ modelReference s.text = some id ∧ T.find id = none := by
  unfold Missing parsePayload
  cases hr : modelReference s.text with
  | none => simp [injected, hown]
  | some id =>
    simp only [refer]
    cases ht : t.find id with
    | some m =>
      have hT := h.find ht
      simp [injected, assignReferred, hT]
    | none => simp [injected]

theorem parse_error_iff (doc : List (Element ResourceSource)) (hf : Fresh doc) :
    (parse doc).error.isSome ↔
      [] ∈ (modelSources doc).map modelName ∨ ¬ ((modelSources doc).map modelName).Nodup ∨
      ∃ s ∈ sources doc, ∃ id, id ≠ [] ∧ modelReference s.text = some id ∧
        id ∉ (modelSources doc).map modelName := by
  have hR := (resolveElements_spec (parseElements doc).2.table (parseElements doc).1
    (parseElements doc).2.error).2
  have hM := readModels_spec (modelSources doc) {}
  have hfind : ∀ id, (parseElements doc).2.table.find id = none ↔
      id ∉ (modelSources doc).map modelName := by
    intro id
    have h1 := find_isSome_iff (parseElements doc).2.table id
    have h2 := hM.1 id
    rw [← parseElements_memory] at h2
    simp only [List.map_nil, List.not_mem_nil, false_or] at h2
    rw [h2] at h1
    rw [← h1]
    cases (parseElements doc).2.table.find id <;> simp
  unfold parse
  dsimp only
  rw [hR]
  have hE := hM.2
  rw [← parseElements_memory] at hE
  rw [hE]
  have hP : (∃ p ∈ payloads (parseElements doc).1, Missing (parseElements doc).2.table p) ↔
      ∃ s ∈ sources doc, ∃ id, id ≠ [] ∧ modelReference s.text = some id ∧
        id ∉ (modelSources doc).map modelName := by
    have hF := parseElements_partly doc
    rw [← allSources_snd]
    simp only [← hfind]
    have hfr : ∀ s ∈ allSources doc, s.2.own.refId = [] := fun s hs =>
      hf s.2 (by rw [← allSources_snd]; exact List.mem_map_of_mem hs)
    generalize (parseElements doc).2.table = T at hF ⊢
    generalize payloads (parseElements doc).1 = ps at hF ⊢
    generalize allSources doc = ss at hF hfr ⊢
    induction hF with
    | nil => simp
    | cons hab _ ih =>
      obtain ⟨t, ht, rfl⟩ := hab
      simp only [List.mem_cons, exists_eq_or_imp, List.map_cons]
      have ih' := ih (fun s hs => hfr s (List.mem_cons_of_mem _ hs))
      exact or_congr (missing_iff ht _ _ (hfr _ (by simp))) ih'
  rw [hP]
  simp only [Option.isSome_none, Bool.false_eq_true, false_or, List.map_nil, List.not_mem_nil,
    and_false, exists_false, or_false, or_assoc]

/-! ## The text of a reference -/

theorem blank_white {c : UInt8} (h : blank c = true) : Spec.White c :=
  forallU8 (P := fun c => blank c = true → Spec.White c) (by unfold Spec.White; decide +kernel) c h

theorem symbolChar_iff {c : UInt8} :
    symbolChar c = true ↔ c ∉ [asc '[', asc ']', asc '(', asc ')'] :=
  forallU8 (P := fun c => symbolChar c = true ↔ c ∉ [asc '[', asc ']', asc '(', asc ')'])
    (by decide +kernel) c

theorem strip_bare {t : Bytes} (h : Spec.Bare t) :
    ((t.dropWhile blank).reverse.dropWhile blank).reverse = t := by
  have h1 : t.dropWhile blank = t := Text.dropWhile_head fun c hc => by
    cases hb : blank c
    · rfl
    · exact absurd (blank_white hb) (h.1 c hc)
  have h2 : t.reverse.dropWhile blank = t.reverse := Text.dropWhile_head fun c hc => by
    cases hb : blank c
    · rfl
    · exact absurd (blank_white hb) (h.2 c (by rwa [List.head?_reverse] at hc))
  rw [h1, h2, List.reverse_reverse]

theorem takeWhile_nonzero {t : Bytes} (h : (0 : UInt8) ∉ t) : t.takeWhile (· ≠ 0) = t := by
  induction t with
  | nil => rfl
  | cons c t ih =>
    have hc : c ≠ 0 := fun h0 => h (by simp [h0])
    rw [List.takeWhile_cons, if_pos (by simpa using hc), ih fun hm => h (by simp [hm])]

theorem bracket_bare (x : Bytes) : Spec.Bare (asc '[' :: (x ++ str "][]")) := by
  refine ⟨fun c hc => ?_, fun c hc => ?_⟩
  · simp only [List.head?_cons, Option.some.injEq] at hc
    subst hc
    unfold Spec.White
    decide
  · have : (asc '[' :: (x ++ str "][]")).getLast? = some (asc ']') := by
      rw [← List.cons_append, List.getLast?_append]
      rfl
    rw [this] at hc
    cases hc
    unfold Spec.White
    decide

theorem modelReference_iff {text : Bytes} (h0 : (0 : UInt8) ∉ text) (symbol : Bytes) :
    modelReference text = some symbol ↔ IsReference text symbol := by
  obtain ⟨a, b, ht, ha, hb, hbare⟩ := Text.trim_spec text
  have h0' : (0 : UInt8) ∉ Text.trim text := fun h => h0 (by rw [ht]; simp [h])
  unfold modelReference
  rw [takeWhile_nonzero h0', strip_bare hbare]
  constructor
  · intro h
    dsimp only at h
    split at h
    · rename_i hc
      simp only [Bool.and_eq_true, beq_iff_eq, Bool.not_eq_true', List.isEmpty_eq_false_iff,
        List.all_eq_true] at hc
      cases h
      refine ⟨a, _, b, ?_, ha, hb, hc.1.2, fun c hc' => symbolChar_iff.1 (hc.2 c hc'),
        Text.trim_spec _⟩
      rw [← hc.1.1]
      exact ht
    · cases h
  · rintro ⟨before, inner, after, he, hbe, haf, hne, hch, htr⟩
    have htrim : Text.trim text = asc '[' :: (inner ++ str "][]") :=
      Text.trim_unique ⟨before, after, he, hbe, haf, bracket_bare inner⟩
    have hin : ((asc '[' :: (inner ++ str "][]")).drop 1).take
        ((asc '[' :: (inner ++ str "][]")).length - 4) = inner := by
      have hl : (asc '[' :: (inner ++ str "][]")).length - 4 = inner.length := by
        simp [str]
      rw [hl]
      simp
    dsimp only
    rw [htrim, hin, if_pos, Text.trim_unique htr]
    simp only [beq_self_eq_true, Bool.true_and, Bool.and_eq_true, Bool.not_eq_true',
      List.isEmpty_eq_false_iff, List.all_eq_true]
    exact ⟨hne, fun c hc => symbolChar_iff.2 (hch c hc)⟩

/-! ## Examples -/

theorem addPayload_cut (side : Side) (p : Payload) (es : List Example) (h : Cut es) :
    Cut (addPayload side p es) := by
  rcases list_snoc es with rfl | ⟨i, e, rfl⟩
  · cases side <;> simp [addPayload, onLast, Cut]
  · have hl : (i ++ [e]).getLast? = some e := by simp
    have h1 : ∀ x ∈ i, x.responses ≠ [] := by simpa [Cut] using h.1
    cases side with
    | request =>
      simp only [addPayload, hl]
      split
      · rename_i hr
        have hr : e.responses ≠ [] := by simpa using hr
        rw [onLast_eq]
        refine ⟨?_, ?_⟩
        · rw [List.dropLast_concat]
          intro x hx
          rcases List.mem_append.1 hx with hx | hx
          · exact h1 x hx
          · simp only [List.mem_singleton] at hx
            subst hx; exact hr
        · intro x hx
          rw [List.tail_append_of_ne_nil (by simp)] at hx
          rcases List.mem_append.1 hx with hx | hx
          · exact h.2 x hx
          · simp only [List.mem_singleton] at hx
            subst hx; simp
      · rw [onLast_eq]
        refine ⟨by rw [List.dropLast_concat]; exact h1, ?_⟩
        intro x hx
        cases i with
        | nil => simp at hx
        | cons y i =>
          simp only [List.cons_append, List.tail_cons, List.mem_append, List.mem_singleton] at hx
          rcases hx with hx | hx
          · exact h.2 x (by simp [hx])
          · subst hx; simp
    | response =>
      simp only [addPayload]
      rw [if_neg (by simp), onLast_eq]
      refine ⟨by rw [List.dropLast_concat]; exact h1, ?_⟩
      intro x hx
      cases i with
      | nil => simp at hx
      | cons y i =>
        simp only [List.cons_append, List.tail_cons, List.mem_append, List.mem_singleton] at hx
        rcases hx with hx | hx
        · exact h.2 x (by simp [hx])
        · subst hx; exact h.2 e (by simp)

theorem addPayload_nonempty (side : Side) (p : Payload) (es : List Example)
    (h : ∀ e ∈ es, ofExample e ≠ []) : ∀ e ∈ addPayload side p es, ofExample e ≠ [] := by
  rcases list_snoc es with rfl | ⟨i, e, rfl⟩
  · cases side <;> simp [addPayload, onLast, ofExample]
  · have hi : ∀ x ∈ i, ofExample x ≠ [] := fun x hx => h x (by simp [hx])
    have hl : (i ++ [e]).getLast? = some e := by simp
    cases side with
    | request =>
      simp only [addPayload, hl]
      split
      · rw [onLast_eq]
        intro x hx
        simp only [List.mem_append, List.mem_singleton] at hx
        rcases hx with (hx | hx) | hx
        · exact hi x hx
        · subst hx; exact h x (by simp)
        · subst hx; simp [ofExample]
      · rw [onLast_eq]
        intro x hx
        simp only [List.mem_append, List.mem_singleton] at hx
        rcases hx with hx | hx
        · exact hi x hx
        · subst hx; simp [ofExample]
    | response =>
      simp only [addPayload]
      rw [if_neg (by simp), onLast_eq]
      intro x hx
      simp only [List.mem_append, List.mem_singleton] at hx
      rcases hx with hx | hx
      · exact hi x hx
      · subst hx; simp [ofExample]

theorem addPayload_sides (side : Side) (p : Payload) (es : List Example) :
    (addPayload side p es).flatMap sides = es.flatMap sides ++ [(side, p)] := by
  rcases list_snoc es with rfl | ⟨i, e, rfl⟩
  · cases side <;> simp [addPayload, onLast, sides]
  · cases side with
    | request =>
      have hl : (i ++ [e]).getLast? = some e := by simp
      simp only [addPayload, hl]
      split
      · rename_i h
        rw [onLast_eq]
        simp [sides]
      · rename_i h
        have h : e.responses = [] := by simpa using h
        rw [onLast_eq]
        simp [sides, h]
    | response =>
      simp only [addPayload]
      rw [if_neg (by simp), onLast_eq]
      simp [sides]

theorem Cut.tail {e : Example} {es : List Example} (h : Cut (e :: es)) : Cut es := by
  refine ⟨fun x hx => ?_, fun x hx => h.2 x (List.mem_of_mem_tail hx)⟩
  cases es with
  | nil => simp at hx
  | cons y es => exact h.1 x (List.mem_cons_of_mem _ hx)

/-- The first example can be read off the sequence. -/
theorem cut_head {e : Example} {es : List Example} (h : Cut (e :: es)) :
    let s := (e :: es).flatMap sides
    s.takeWhile (fun x => x.1 == .request) = e.requests.map (Side.request, ·) ∧
      (s.dropWhile fun x => x.1 == .request).takeWhile (fun x => x.1 == .response) =
        e.responses.map (Side.response, ·) ∧
      (s.dropWhile fun x => x.1 == .request).dropWhile (fun x => x.1 == .response) =
        es.flatMap sides := by
  intro s
  have hs : s = e.requests.map (Side.request, ·) ++
      (e.responses.map (Side.response, ·) ++ es.flatMap sides) := by
    simp [s, sides]
  have hreq : ∀ x ∈ e.requests.map (Side.request, ·), (x.1 == Side.request) = true := by
    intro x hx
    obtain ⟨p, _, rfl⟩ := List.mem_map.1 hx
    rfl
  have hres : ∀ x ∈ e.responses.map (Side.response, ·), (x.1 == Side.response) = true := by
    intro x hx
    obtain ⟨p, _, rfl⟩ := List.mem_map.1 hx
    rfl
  -- the rest begins with a request, if there is any
  have hrest : ∀ x, (es.flatMap sides).head? = some x → x.1 = .request := by
    intro x hx
    cases es with
    | nil => simp at hx
    | cons y es =>
      have := h.2 y (by simp)
      obtain ⟨p, ps, hp⟩ := List.exists_cons_of_ne_nil this
      simp only [List.flatMap_cons, sides, hp, List.map_cons, List.cons_append, List.head?_cons,
        Option.some.injEq] at hx
      subst hx; rfl
  have hmid : ∀ x, (e.responses.map (Side.response, ·) ++ es.flatMap sides).head? = some x →
      (x.1 == Side.request) = false := by
    intro x hx
    cases hr : e.responses with
    | nil =>
      cases es with
      | nil => simp [hr] at hx
      | cons y es => exact absurd hr (h.1 e (by simp))
    | cons p ps =>
      simp only [hr, List.map_cons, List.cons_append, List.head?_cons, Option.some.injEq] at hx
      subst hx; rfl
  have h1 : s.takeWhile (fun x => x.1 == .request) = e.requests.map (Side.request, ·) := by
    rw [hs, List.takeWhile_append_of_pos hreq]
    cases hm : e.responses.map (Side.response, ·) ++ es.flatMap sides with
    | nil => simp
    | cons x l => rw [List.takeWhile_cons, hmid x (by rw [hm]; rfl)]; simp
  have h2 : s.dropWhile (fun x => x.1 == .request) =
      e.responses.map (Side.response, ·) ++ es.flatMap sides := by
    rw [hs, Text.dropWhile_append_all hreq, Text.dropWhile_head hmid]
  refine ⟨h1, ?_, ?_⟩
  · rw [h2, List.takeWhile_append_of_pos hres]
    cases hm : es.flatMap sides with
    | nil => simp
    | cons x l => rw [List.takeWhile_cons, hrest x (by rw [hm]; rfl)]; simp
  · rw [h2, Text.dropWhile_append_all hres, Text.dropWhile_head fun x hx => by rw [hrest x hx]; rfl]

theorem cut_unique (es es' : List Example) (h : Cut es) (h' : Cut es')
    (hn : ∀ e ∈ es, ofExample e ≠ []) (hn' : ∀ e ∈ es', ofExample e ≠ [])
    (hs : es.flatMap sides = es'.flatMap sides) : es = es' := by
  have hne : ∀ e : Example, ofExample e ≠ [] → sides e ≠ [] := by
    intro e he h0
    apply he
    simp only [sides, List.append_eq_nil_iff, List.map_eq_nil_iff] at h0
    simp [ofExample, h0]
  have hinj : ∀ (sd : Side) (a b : List Payload), a.map (sd, ·) = b.map (sd, ·) → a = b := by
    intro sd a b hab
    have := congrArg (List.map Prod.snd) hab
    simpa [Function.comp_def] using this
  induction es generalizing es' with
  | nil =>
    cases es' with
    | nil => rfl
    | cons e' es' =>
      simp only [List.flatMap_nil, List.flatMap_cons] at hs
      exact absurd (List.append_eq_nil_iff.1 hs.symm).1 (hne e' (hn' e' (by simp)))
  | cons e es ih =>
    cases es' with
    | nil =>
      simp only [List.flatMap_nil, List.flatMap_cons] at hs
      exact absurd (List.append_eq_nil_iff.1 hs).1 (hne e (hn e (by simp)))
    | cons e' es' =>
      obtain ⟨a1, a2, a3⟩ := cut_head h
      obtain ⟨b1, b2, b3⟩ := cut_head h'
      rw [hs] at a1 a2 a3
      have hr := hinj _ _ _ (a1.symm.trans b1)
      have hp := hinj _ _ _ (a2.symm.trans b2)
      have ht := ih es' (Cut.tail h) (Cut.tail h') (fun x hx => hn x (by simp [hx]))
        (fun x hx => hn' x (by simp [hx])) (a3.symm.trans b3)
      obtain ⟨rq, rs⟩ := e
      obtain ⟨rq', rs'⟩ := e'
      simp only at hr hp
      rw [hr, hp, ht]

end Verif.References
