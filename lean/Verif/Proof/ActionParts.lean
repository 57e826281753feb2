import Verif.Proof.ActionKinds
import Verif.Proof.Parameters
import Verif.Props.C75_C76
import Verif.Props.C47_C48
import Verif.Props.C78_C79

/-! # The header, the examples and the end of an action -/

namespace Verif.Action
open Verif Verif.Text Verif.Regex Verif.Section Verif.Recognition Verif.Spec Verif.Spec.Recognition Verif.Spec.Payload Verif.Spec.Action Verif.Props
open Verif.Payload (World steps sourceOf)
open Verif.Spec.MsonParser (Follows)
open Verif.References (Example onLast)

/-! ## The header -/

theorem named_unique {s n n' m m' u u' : Bytes} (hsol : Solid s) (h : NamedActionLine s n m u) (h' : NamedActionLine s n' m' u')
    (hl : n.length = n'.length) : n = n' ∧ m = m' ∧ u = u' := by
  obtain ⟨a, b, he, ha, hn, hm, hb, hu1⟩ := h
  obtain ⟨a', b', he', ha', hn', hm', hb', hu'⟩ := h'
  have ea : a = [] := by
    have : s = a ++ (n ++ asc '[' :: m ++ b ++ u ++ [asc ']']) := by rw [he]; simp
    rw [this] at hsol
    exact solid_noBlanks hsol ha
  have ea' : a' = [] := by
    have : s = a' ++ (n' ++ asc '[' :: m' ++ b' ++ u' ++ [asc ']']) := by rw [he']; simp
    rw [this] at hsol
    exact solid_noBlanks hsol ha'
  subst ea; subst ea'
  rw [he] at he'
  have he2 : n ++ asc '[' :: (m ++ (b ++ (u ++ [asc ']']))) = n' ++ asc '[' :: (m' ++ (b' ++ (u' ++ [asc ']']))) := by
    simpa using he'
  obtain ⟨hnn, he3⟩ := List.append_inj he2 hl
  simp only [List.cons.injEq, true_and] at he3
  obtain ⟨hmm, this2⟩ := method_unique hm hm' he3
  have hc := cancel_blanks (x := u ++ [asc ']']) (y := u' ++ [asc ']']) this2 hb hb' (by
      rcases hu1 with rfl | hu1
      · intro c hc; simp at hc; subst hc; decide
      · exact solid_append (path_ne hu1) (solid_path hu1)) (by
      rcases hu' with rfl | hu'
      · intro c hc; simp at hc; subst hc; decide
      · exact solid_append (path_ne hu') (solid_path hu'))
  exact ⟨hnn, hmm, List.append_cancel_right hc.2⟩

theorem headLine_iff {text : Bytes} {a : Action} : HeadLine text a ↔
    a = { method := (actionSignature text).1.method, name := (actionSignature text).1.name, uri := (actionSignature text).1.uri } := by
  constructor
  · intro h
    cases h with
    | plain h1 h2 h3 => rw [C75_plain _ _ _ _ _ h1 h2 h3]
    | @named l s n t m u h1 h2 h3 h4 h5 h6 =>
      obtain ⟨n', t', m', u', g1, g2, g3, g4⟩ := C75_named text l s h1 h2 h3 ⟨n, m, u, h4⟩
      obtain ⟨rfl, rfl, rfl⟩ := named_unique (seen_solid h2) h4 g1 (Nat.le_antisymm (g2 _ _ _ h4) (h5 _ _ _ g1))
      rw [g4, ← trim_unique h6, ← trim_unique g3]
    | none h1 h2 h3 => rw [C75_none _ _ _ h1 h2 h3]
  · rintro rfl
    have h1 : FirstLine text (getFirstLine text).1 := firstLine_iff.mpr rfl
    have h2 : Seen (getFirstLine text).1 (cstr (trim (getFirstLine text).1)) := seen_iff.mpr rfl
    by_cases hp : ∃ m u, ActionLine (cstr (trim (getFirstLine text).1)) m u
    · obtain ⟨m, u, hp⟩ := hp
      rw [C75_plain _ _ _ _ _ h1 h2 hp]
      exact .plain h1 h2 hp
    · by_cases hn : ∃ n m u, NamedActionLine (cstr (trim (getFirstLine text).1)) n m u
      · obtain ⟨n, t, m, u, g1, g2, g3, g4⟩ := C75_named _ _ _ h1 h2 hp hn
        rw [g4]
        exact .named h1 h2 hp g1 g2 g3
      · have hf : ¬ ActionForm (cstr (trim (getFirstLine text).1)) := by
          rintro (h | h)
          · exact hp h
          · exact hn h
        rw [C75_none _ _ _ h1 h2 hf]
        exact .none h1 h2 hf

/-! ## Descriptions -/

theorem describes_iff {w : World} {ctx : List SectionType} {ns : List Node} : ∀ {a : Action} {vs : List Warning} {d : Data},
    steps (fun n d => actionDescription w n ⟨ctx, d⟩) ns ⟨a, vs⟩ = .ok d ↔
      ∃ e, Describes w a.description ns e ∧ d = ⟨{ a with description := e }, vs⟩ := by
  have step : ∀ {n : Node} {a : Action} {vs : List Warning} {d : Data}, actionDescription w n ⟨ctx, ⟨a, vs⟩⟩ = .ok d ↔
      ∃ s d', Trimmed (ByteBuffer.mapBytesRangeSet n.sourceMap w.source) s ∧ Follows a.description s d' ∧
        d = ⟨{ a with description := d' }, vs⟩ := by
    intro n a vs d
    unfold actionDescription
    simp only
    by_cases he : a.description = []
    · rw [if_pos (by simpa using he)]
      simp only [List.nil_append]
      constructor
      · intro h; cases h
        exact ⟨_, _, trim_iff.mp rfl, by rw [he]; exact .first, rfl⟩
      · rintro ⟨s, d', h1, h2, rfl⟩
        rw [he] at h2
        cases h2 with
        | first => rw [← trim_iff] at h1; rw [sourceOf, h1]
        | next h => exact absurd rfl h
    · rw [if_neg (by simpa using he)]
      constructor
      · intro h
        cases ht : twoNewLines a.description with
        | none => rw [ht] at h; cases h
        | some r =>
          rw [ht] at h
          cases h
          have hne : ¬ (a.description = [] ∨ a.description = [asc '\n']) := by rw [← Payload.twoNewLines_none, ht]; simp
          rw [not_or] at hne
          refine ⟨_, _, trim_iff.mp rfl, .next hne.1 hne.2, ?_⟩
          rw [Payload.twoNewLines_closed ht]; rfl
      · rintro ⟨s, d', h1, h2, rfl⟩
        rw [← trim_iff] at h1
        generalize hd : a.description = x at h2 he
        cases h2 with
        | first => exact absurd rfl he
        | next h h' =>
          cases ht : twoNewLines x with
          | none => rcases Payload.twoNewLines_none.mp ht with h | h <;> contradiction
          | some r => simp only [sourceOf]; rw [h1, Payload.twoNewLines_closed ht]
  induction ns with
  | nil =>
    intro a vs d
    rw [steps]
    constructor
    · intro h; cases h; exact ⟨_, .nil, rfl⟩
    · rintro ⟨e, h, rfl⟩; cases h; rfl
  | cons n ns ih =>
    intro a vs d
    rw [steps]
    constructor
    · intro h
      split at h
      · cases h
      · rename_i d₁ h1
        obtain ⟨s, d', h2, h3, rfl⟩ := step.mp h1
        obtain ⟨e, h4, rfl⟩ := ih.mp h
        exact ⟨e, .cons h2 h3 h4, rfl⟩
    · rintro ⟨e, h, rfl⟩
      cases h with
      | cons h2 h3 h4 =>
        rw [step.mpr ⟨_, _, h2, h3, rfl⟩]
        simp only
        rw [ih.mpr ⟨_, h4, rfl⟩]

/-! ## Examples -/

theorem onLast_append (f : Example → Example) (es : List Example) (e : Example) : onLast f (es ++ [e]) = es ++ [f e] := by
  induction es with
  | nil => rfl
  | cons a es ih =>
    cases es with
    | nil => rfl
    | cons b es => simp only [List.cons_append, onLast] at ih ⊢; rw [ih]

theorem with_iff {t : SectionType} {p : References.Payload} {e e' : Example} (ht : IsRequest t ∨ IsResponse t) :
    With t p e e' ↔ e' = push t p e := by
  unfold push
  constructor
  · intro h
    cases h with
    | request h => rw [if_pos (show t = .request ∨ t = .requestBody from h)]
    | response h => rw [if_neg (by rcases h with rfl | rfl <;> decide)]
  · rintro rfl
    split
    · exact .request ‹_›
    · exact .response (ht.resolve_left ‹_›)

theorem enters_iff {t : SectionType} {p : References.Payload} {es es' : List Example} {e : Example} (ht : IsRequest t ∨ IsResponse t) :
    Enters t p es e es' ↔ e = ((openExample t es).getLast?.getD {}) ∧ es' = onLast (push t p) (openExample t es) := by
  rcases List.eq_nil_or_concat es with rfl | ⟨es₀, e₀, rfl⟩
  · constructor
    · intro h
      generalize hx : ([] : List Example) = x at h
      cases h with
      | first h => rw [with_iff ht] at h; subst h; exact ⟨rfl, rfl⟩
      | next h => simp at hx
      | same h => simp at hx
    · rintro ⟨rfl, rfl⟩
      exact .first ((with_iff ht).mpr rfl)
  · have hg : (es₀.concat e₀).getLast? = some e₀ := by simp
    have eo : openExample t (es₀.concat e₀) = if (t = .request ∨ t = .requestBody) ∧ e₀.responses ≠ [] then es₀ ++ [e₀] ++ [({} : Example)] else es₀ ++ [e₀] := by
      unfold openExample
      rw [hg]
      simp only [List.concat_eq_append]
    rw [eo]
    rw [List.concat_eq_append]
    by_cases hn : (t = .request ∨ t = .requestBody) ∧ e₀.responses ≠ []
    · rw [if_pos hn, onLast_append]
      constructor
      · intro h
        generalize hx : es₀ ++ [e₀] = x at h
        cases h with
        | first h => simp at hx
        | next h h' h'' =>
          obtain ⟨rfl, hx'⟩ := List.append_inj' hx rfl
          cases hx'
          rw [with_iff ht] at h''
          subst h''
          simp
        | same h h' =>
          obtain ⟨rfl, hx'⟩ := List.append_inj' hx rfl
          cases hx'
          exact absurd (h hn.1) hn.2
      · rintro ⟨rfl, rfl⟩
        have := Enters.next (es := es₀) (e := e₀) (p := p) hn.1 hn.2 ((with_iff (e := {}) ht).mpr rfl)
        simpa using this
    · rw [if_neg hn, onLast_append]
      constructor
      · intro h
        generalize hx : es₀ ++ [e₀] = x at h
        cases h with
        | first h => simp at hx
        | next h h' h'' =>
          obtain ⟨rfl, hx'⟩ := List.append_inj' hx rfl
          cases hx'
          exact absurd ⟨h, h'⟩ hn
        | same h h' =>
          obtain ⟨rfl, hx'⟩ := List.append_inj' hx rfl
          cases hx'
          rw [with_iff ht] at h'
          subst h'
          simp
      · rintro ⟨rfl, rfl⟩
        have := Enters.same (es := es₀) (e := e₀) (p := p) (fun h => Decidable.not_not.mp fun h' => hn ⟨h, h'⟩) ((with_iff ht).mpr rfl)
        simpa using this

theorem contentType_iff {hs : List References.Header} {v : Bytes} : ContentType hs v ↔ v = firstHeader References.contentType hs := by
  unfold ContentType firstHeader
  have hc : References.contentType = str "Content-Type" := rfl
  rw [hc]
  induction hs with
  | nil => simp
  | cons h hs ih =>
    rw [List.find?_cons]
    by_cases he : h.1 = str "Content-Type"
    · simp only [he, beq_self_eq_true]
      constructor
      · rintro (⟨a, b, hab, hn⟩ | ⟨hn, _⟩)
        · cases a with
          | nil => simp only [List.nil_append, List.cons.injEq] at hab; rw [hab.1]
          | cons x a =>
            simp only [List.cons_append, List.cons.injEq] at hab
            exact absurd (hab.1 ▸ he) (hn x (by simp))
        · exact absurd he (hn h (by simp))
      · rintro rfl
        exact .inl ⟨[], hs, by rw [← he]; rfl, by simp⟩
    · have hb : (h.1 == str "Content-Type") = false := by simpa using he
      simp only [hb]
      refine Iff.trans ?_ ih
      constructor
      · rintro (⟨a, b, hab, hn⟩ | ⟨hn, hv⟩)
        · cases a with
          | nil => simp only [List.nil_append, List.cons.injEq] at hab; exact absurd (by rw [hab.1]) he
          | cons x a =>
            simp only [List.cons_append, List.cons.injEq] at hab
            exact .inl ⟨a, b, hab.2, fun y hy => hn y (by simp [hy])⟩
        · exact .inr ⟨fun y hy => hn y (by simp [hy]), hv⟩
      · rintro (⟨a, b, hab, hn⟩ | ⟨hn, hv⟩)
        · refine .inl ⟨h :: a, b, by rw [hab]; rfl, ?_⟩
          intro y hy
          rcases List.mem_cons.mp hy with rfl | hy
          · exact he
          · exact hn y hy
        · refine .inr ⟨?_, hv⟩
          intro y hy
          rcases List.mem_cons.mp hy with rfl | hy
          · exact he
          · exact hn y hy

theorem alike_iff {p q : References.Payload} : Alike p q ↔ matchPayload p q = true := by
  unfold Alike matchPayload
  simp only [contentType_iff, Bool.and_eq_true, beq_iff_eq]
  constructor
  · rintro ⟨h, v, h1, h2⟩; exact ⟨h, h1.symm.trans h2⟩
  · rintro ⟨h, h1⟩; exact ⟨h, _, rfl, h1⟩

theorem repeats_iff {t : SectionType} {p : References.Payload} {e : Example} : Repeats t p e ↔ isDuplicate t p e = true := by
  unfold Repeats isDuplicate
  simp only [alike_iff]
  cases t <;> simp

theorem twice_iff {t : SectionType} {method : Bytes} {p : References.Payload} {e : Example} {b : List Warning} :
    Twice t method p e b ↔ b = if isDuplicate t p e then [.duplicate t p.name method] else [] := by
  constructor
  · intro h
    cases h with
    | yes h => rw [if_pos (repeats_iff.mp h)]
    | no h => rw [if_neg (fun h' => h (repeats_iff.mpr h'))]
  · rintro rfl
    split
    · exact .yes (repeats_iff.mpr ‹_›)
    · exact .no (fun h => by have := repeats_iff.mp h; contradiction)

theorem forbidden_iff {t : SectionType} {method : Bytes} {p : References.Payload} {c : List Warning} :
    Forbidden t method p c ↔ c = if t = .response ∨ t = .responseBody then
      (match Http.checkMethod method p.name p.body with
      | some w => [.method w]
      | none => []) else [] := by
  by_cases ht : t = .response ∨ t = .responseBody
  · rw [if_pos ht]
    by_cases hb : p.body = []
    · have e : Http.checkMethod method p.name p.body = none := by simp [Http.checkMethod, hb]
      rw [e]
      constructor
      · intro h; cases h <;> first | rfl | contradiction
      · rintro rfl; exact .no (fun h => h.2.1 hb)
    · obtain ⟨h1, h2⟩ := C47_method_warning method p.name p.body hb
      constructor
      · intro h
        cases h with
        | head _ _ h => rw [h1.mpr h]
        | connect _ _ h h' l r => rw [(h2 _).mpr ⟨h, h'.symm, l, r⟩]
        | no h =>
          cases hc : Http.checkMethod method p.name p.body with
          | none => rfl
          | some w =>
            cases w with
            | method => exact absurd ⟨ht, hb, .inl (h1.mp hc)⟩ h
            | connect code =>
              obtain ⟨a, rfl, c, d⟩ := (h2 _).mp hc
              exact absurd ⟨ht, hb, .inr ⟨a, c, d⟩⟩ h
      · rintro rfl
        cases hc : Http.checkMethod method p.name p.body with
        | none =>
          refine .no ?_
          rintro ⟨_, _, h | ⟨h, h', h''⟩⟩
          · rw [h1.mpr h] at hc; cases hc
          · rw [(h2 _).mpr ⟨h, rfl, h', h''⟩] at hc; cases hc
        | some w =>
          cases w with
          | method => exact .head ht hb (h1.mp hc)
          | connect code =>
            obtain ⟨a, rfl, c, d⟩ := (h2 _).mp hc
            exact .connect ht hb a rfl c d
  · rw [if_neg ht]
    constructor
    · intro h; cases h <;> first | rfl | contradiction
    · rintro rfl; exact .no (fun h => ht h.1)

theorem continueLast_append (c : Bytes) (ps : List References.Payload) (p : References.Payload) :
    continueLast c (ps ++ [p]) = ps ++ [{ p with body := p.body ++ c }] := by
  unfold continueLast; simp

/-! ## The end -/

theorem notFound_iff {uri : Bytes} {ps : List Bytes} : ∀ {ws : List Warning}, NotFound uri ps ws ↔ ws = eligibility uri ps := by
  induction ps with
  | nil =>
    intro ws
    constructor
    · intro h; cases h; rfl
    · rintro rfl; exact .nil
  | cons p ps ih =>
    intro ws
    have hv := Parameters.variableNames_iff (uri := uri) (n := p)
    have e : eligibility uri (p :: ps) = (if p ∈ Parameters.variableNames uri then [] else [Warning.notFound p]) ++ eligibility uri ps := by
      unfold eligibility
      rw [List.filter_cons]
      by_cases h : p ∈ Parameters.variableNames uri
      · rw [if_neg (by simpa using h), if_pos h]; rfl
      · rw [if_pos (by simpa using h), if_neg h]; rfl
    rw [e]
    constructor
    · intro h
      cases h with
      | found h1 h2 => rw [if_pos (hv.mpr h1), ih.mp h2]; rfl
      | not h1 h2 => rw [if_neg (fun h => h1 (hv.mp h)), ih.mp h2]; rfl
    · rintro rfl
      split
      · exact .found (hv.mp ‹_›) (ih.mpr rfl)
      · rename_i h; exact .not (fun h' => h (hv.mpr h')) (ih.mpr rfl)

theorem missing_append (es : List Example) (e : Example) : missing (es ++ [e]) =
    match e.requests.getLast? with
    | none => []
    | some r => if e.responses.isEmpty then [.noResponseFor r.name] else [] := by
  unfold missing; simp only [List.getLast?_concat]; cases e.requests.getLast? <;> rfl

theorem unanswered_iff {es : List Example} {ws : List Warning} : Unanswered es ws ↔ ws = missing es := by
  constructor
  · intro h
    cases h with
    | none => rfl
    | last => rw [missing_append]; simp
    | no h =>
      rw [missing_append]
      rcases h with h | h
      · rw [h]; rfl
      · split
        · rfl
        · rw [if_neg (by simpa using h)]
  · rintro rfl
    rcases List.eq_nil_or_concat es with rfl | ⟨es, e, rfl⟩
    · exact .none
    · rw [List.concat_eq_append, missing_append]
      obtain ⟨rs, ss⟩ := e
      rcases List.eq_nil_or_concat rs with rfl | ⟨rs, r, rfl⟩
      · exact .no (.inl rfl)
      · simp only [List.concat_eq_append, List.getLast?_concat]
        cases ss with
        | nil => exact .last
        | cons s ss => exact .no (.inr (by simp))

theorem missing_inject (hs : List References.Header) (es : List Example) : missing (References.injectHeaders hs es) = missing es := by
  unfold References.injectHeaders
  rcases List.eq_nil_or_concat es with rfl | ⟨es, e, rfl⟩
  · rfl
  · simp only [List.concat_eq_append, List.map_append, List.map_cons, List.map_nil]
    rw [missing_append, missing_append]
    simp only [List.getLast?_map, List.isEmpty_map]
    cases e.requests.getLast? <;> rfl

theorem inject_nil (es : List Example) : Injected [] es = es := by
  unfold Injected
  simp

theorem finished_iff {a : Action} {vs : List Warning} {d : Data} :
    actionFinalize ⟨a, vs⟩ = d ↔ ∃ a' ws, Finished a a' ws ∧ d = ⟨a', vs ++ ws⟩ := by
  have key : actionFinalize ⟨a, vs⟩ = ⟨{ a with headers := [], examples := Injected a.headers a.examples },
      vs ++ ((if a.uri = [] then [] else eligibility a.uri a.parameters) ++ missing a.examples)⟩ := by
    unfold actionFinalize
    simp only
    by_cases hh : a.headers = []
    · rw [if_neg (by simpa using hh), hh, inject_nil, ← hh]
      simp only [Data.mk.injEq, true_and, List.append_assoc]
      congr 2
      by_cases hu : a.uri = [] <;> simp [hu]
    · rw [if_pos (by simpa using hh)]
      simp only [missing_inject, Data.mk.injEq, List.append_assoc]
      refine ⟨rfl, ?_⟩
      congr 2
      by_cases hu : a.uri = [] <;> simp [hu]
  rw [key]
  constructor
  · rintro rfl
    refine ⟨_, _, .mk ?_ (unanswered_iff.mpr rfl), rfl⟩
    by_cases hu : a.uri = []
    · exact .inl ⟨hu, by rw [if_pos hu]⟩
    · exact .inr ⟨hu, by rw [if_neg hu]; exact notFound_iff.mpr rfl⟩
  · rintro ⟨a', ws, ⟨h1, h2⟩, rfl⟩
    rw [unanswered_iff] at h2
    subst h2
    rcases h1 with ⟨hu, rfl⟩ | ⟨hu, h1⟩
    · rw [if_pos hu]
    · rw [if_neg hu, notFound_iff.mp h1]

end Verif.Action
