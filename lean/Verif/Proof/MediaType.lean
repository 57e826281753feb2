import Verif.Proof.Headers
import Verif.Spec.MediaType
/-! Proofs about media types. -/
namespace Verif.MediaType
open Verif Verif.Text Verif.Spec

theorem alnum_iff {c : UInt8} : alnum c = true ↔ isAlpha c ∨ isDigit c :=
  forallU8 (P := fun c => alnum c = true ↔ isAlpha c ∨ isDigit c) (by unfold isAlpha isDigit; decide +kernel) c

theorem nameChar_iff {c : UInt8} : (alnum c || restricted c) = true ↔ NameChar c :=
  forallU8 (P := fun c => (alnum c || restricted c) = true ↔ NameChar c) (by unfold NameChar isAlpha isDigit; decide +kernel) c

theorem repMax_all {p : UInt8 → Bool} : ∀ {n : Nat} {a r : Bytes}, a.length ≤ n → (∀ c ∈ a, p c = true) →
    (∀ c, r.head? = some c → p c = false) → repMax p n (a ++ r) = (a, r)
  | n, [], r, _, _, h3 => by
    cases n with
    | zero => rfl
    | succ n =>
      cases r with
      | nil => rfl
      | cons c r => simp [repMax, h3 c rfl]
  | 0, _ :: _, _, h1, _, _ => by simp at h1
  | n + 1, c :: a, r, h1, h2, h3 => by
    have ih := repMax_all (n := n) (a := a) (r := r) (by simp at h1; omega) (fun d hd => h2 d (by simp [hd])) h3
    simp [repMax, h2 c (by simp), ih]

/-- A character that ends a name. -/
def Ends (r : Bytes) : Prop := ∀ c, r.head? = some c → ¬ NameChar c

theorem name_append {n r : Bytes} (h : RestrictedName n) (hr : Ends r) : name (n ++ r) = some (n, r) := by
  obtain ⟨⟨c, hc, ha⟩, hl, hn⟩ := h
  cases n with
  | nil => simp at hc
  | cons d n =>
    simp at hc; subst hc
    have := repMax_all (p := fun c => alnum c || restricted c) (n := 126) (a := n) (r := r) (by simp at hl; omega)
      (fun e he => nameChar_iff.2 (hn e (by simp [he])))
      (fun e he => by
        have := hr e he
        rw [← nameChar_iff] at this
        simpa using this)
    rw [List.cons_append, name, if_pos (alnum_iff.2 ha), this]

theorem ends_cons {c : UInt8} {r : Bytes} (h : ¬ NameChar c) : Ends (c :: r) := by
  intro d hd; simp at hd; subst hd; exact h

theorem ends_nil : Ends [] := by intro d hd; simp at hd

theorem not_nameChar {c : UInt8} (h : (alnum c || restricted c) = false) : ¬ NameChar c := by
  rw [← nameChar_iff, h]; simp

theorem restricted_ne {n : Bytes} (h : RestrictedName n) : n ≠ [] := by
  obtain ⟨⟨c, hc, _⟩, _⟩ := h
  rintro rfl; simp at hc

theorem ows_ws {a : Bytes} (h : Ows a) : ∀ c ∈ a, ws c = true := by
  intro c hc
  rcases h c hc with rfl | rfl <;> decide

theorem ws_ends {c : UInt8} (h : ws c = true) : ¬ NameChar c := by
  rw [← nameChar_iff]
  revert h
  exact forallU8 (P := fun c => ws c = true → ¬ (alnum c || restricted c) = true) (by decide +kernel) c

theorem nameChar_ws {c : UInt8} (h : NameChar c) : ws c = false := by
  cases hw : ws c with
  | false => rfl
  | true => exact absurd h (ws_ends hw)

theorem name_head {n r : Bytes} (h : RestrictedName n) : ∀ c, (n ++ r).head? = some c → ws c = false := by
  intro c hc
  cases n with
  | nil => exact absurd rfl (restricted_ne h)
  | cons d n => simp at hc; subst hc; exact nameChar_ws (h.2.2 _ (by simp))

theorem prefix_none {n r : Bytes} (h : RestrictedName n) (hr : Ends r) (hp : r.head? ≠ some (asc '+')) : subtypePrefix (n ++ r) = none := by
  rw [subtypePrefix.eq_def]
  have := name_append h hr
  split
  · rfl
  · rename_i n' r' hn
    rw [this] at hn; cases hn
    split
    · rfl
    · rw [if_neg]
      rintro rfl; exact hp rfl

theorem prefix_names : ∀ {names : List Bytes} {suffix r : Bytes}, names ≠ [] → (∀ n ∈ names, RestrictedName n) → RestrictedName suffix → Ends r →
    r.head? ≠ some (asc '+') →
    subtypePrefix ([asc '+'].intercalate names ++ asc '+' :: suffix ++ r) = some ([asc '+'].intercalate names, suffix ++ r)
  | [], _, _, h, _, _, _, _ => absurd rfl h
  | [n], suffix, r, _, hn, hs, hr, hp => by
    have hplus : ¬ NameChar (asc '+') := not_nameChar (by decide)
    have h1 := name_append (r := asc '+' :: (suffix ++ r)) (hn n (by simp)) (ends_cons hplus)
    have h2 := prefix_none hs hr hp
    simp only [List.intercalate, List.intersperse_singleton, List.flatten_cons, List.flatten_nil, List.append_nil, List.append_assoc, List.cons_append]
    rw [subtypePrefix.eq_def]
    split
    · rename_i h; rw [h1] at h; cases h
    · rename_i h; rw [h1] at h; cases h
      simp [h2]
  | n :: m :: names, suffix, r, _, hn, hs, hr, hp => by
    have hplus : ¬ NameChar (asc '+') := not_nameChar (by decide)
    have e : [asc '+'].intercalate (n :: m :: names) = n ++ asc '+' :: [asc '+'].intercalate (m :: names) := by simp [List.intercalate]
    have ih := prefix_names (names := m :: names) (suffix := suffix) (r := r) (by simp) (fun x hx => hn x (by simp at hx ⊢; exact .inr hx)) hs hr hp
    rw [e]
    simp only [List.append_assoc, List.cons_append] at ih ⊢
    have h1 := name_append (r := asc '+' :: ([asc '+'].intercalate (m :: names) ++ asc '+' :: (suffix ++ r))) (hn n (by simp)) (ends_cons hplus)
    rw [subtypePrefix.eq_def]
    split
    · rename_i h; rw [h1] at h; cases h
    · rename_i h; rw [h1] at h; cases h
      simp [ih]

theorem subtype_spec {sub suffix text r : Bytes} (h : SubtypeText sub suffix text) (hr : Ends r) (hp : r.head? ≠ some (asc '+')) (ty : Bytes) :
    subtype { type := ty } (text ++ r) = ({ type := ty, subtype := sub, suffix := suffix }, some r) := by
  unfold subtype
  rcases h with ⟨rfl, hs, rfl⟩ | ⟨hs, ⟨names, h1, h2, rfl⟩, rfl⟩
  · rw [prefix_none hs hr hp]
    dsimp only
    rw [name_append hs hr]
  · rw [prefix_names h1 h2 hs hr hp]
    dsimp only
    rw [name_append hs hr]

theorem quoted_spec : ∀ {v r : Bytes}, asc '"' ∉ v → asc '\\' ∉ v → quotedContent (v ++ asc '"' :: r) = some (v, r)
  | [], r, _, _ => by
    rw [List.nil_append, quotedContent.eq_def]; simp +decide
  | c :: v, r, h1, h2 => by
    have ih := quoted_spec (v := v) (r := r) (fun h => h1 (by simp [h])) (fun h => h2 (by simp [h]))
    have e1 : c ≠ asc '\\' := by rintro rfl; simp at h2
    have e2 : c ≠ asc '"' := by rintro rfl; simp at h1
    rw [List.cons_append, quotedContent.eq_def]
    simp [e1, e2, ih]

theorem parameter_spec {p : Bytes × Bytes} {text r : Bytes} (h : ParameterText Unescaped p text) (hr : Ends r) :
    parameter (text ++ r) = some (p, r) := by
  obtain ⟨ha, h⟩ := h
  have heq : ¬ NameChar (asc '=') := not_nameChar (by decide)
  rcases h with ⟨hv, rfl⟩ | ⟨q, ⟨rfl, h1, h2⟩, rfl⟩
  · unfold parameter
    rw [List.append_assoc, List.cons_append, name_append ha (ends_cons heq)]
    simp only [↓reduceIte]
    have : value (p.2 ++ r) = some (p.2, r) := by
      have hn := name_append hv hr
      cases hp : p.2 with
      | nil => exact absurd hp (restricted_ne hv)
      | cons c v =>
        rw [hp] at hn hv
        have hc : c ≠ asc '"' := by
          rintro rfl
          have := hv.2.2 (asc '"') (by simp)
          exact absurd this (not_nameChar (by decide))
        rw [List.cons_append, value, if_neg hc]
        exact hn
    rw [this]; rfl
  · unfold parameter
    simp only [List.append_assoc, List.cons_append]
    rw [name_append ha (ends_cons heq)]
    simp only [↓reduceIte]
    rw [value, if_pos rfl]
    simp only [List.nil_append]
    rw [quoted_spec h1 h2]; rfl

theorem dropWhile_ows {a r : Bytes} (h : Ows a) (hr : ∀ c, r.head? = some c → ws c = false) : (a ++ r).dropWhile ws = r :=
  Headers.dropWhile_all (ows_ws h) hr

theorem ows_end {b : Bytes} (h : Ows b) : b.dropWhile ws = [] := by
  have := dropWhile_ows (r := []) h (by simp)
  simpa using this

theorem ends_ows {b : Bytes} (h : Ows b) : Ends b := by
  intro c hc
  cases b with
  | nil => simp at hc
  | cons d b => simp at hc; subst hc; exact ws_ends (ows_ws h _ (by simp))

theorem ows_plus {b : Bytes} (h : Ows b) : b.head? ≠ some (asc '+') := by
  intro hc
  cases b with
  | nil => simp at hc
  | cons d b =>
    simp at hc; subst hc
    have := ows_ws h _ (List.mem_cons_self)
    revert this; decide

theorem more_end {b : Bytes} (h : Ows b) : moreParameters b = [] := by
  rw [moreParameters.eq_def]
  split
  · rfl
  · split
    · rfl
    · rename_i hp; rw [ows_end h] at hp; cases hp

theorem ends_ws_semi {a r : Bytes} (h : Ows a) : Ends (a ++ asc ';' :: r) := by
  intro c hc
  cases a with
  | nil => simp at hc; subst hc; exact not_nameChar (by decide)
  | cons d a => simp at hc; subst hc; exact ws_ends (ows_ws h _ (by simp))

theorem plus_ws_semi {a r : Bytes} (h : Ows a) : (a ++ asc ';' :: r).head? ≠ some (asc '+') := by
  intro hc
  cases a with
  | nil => simp at hc; revert hc; decide
  | cons d a =>
    simp at hc; subst hc
    have := ows_ws h _ (List.mem_cons_self)
    revert this; decide

theorem ends_params {l : List (Bytes × Bytes)} {y b : Bytes} (h : ParametersText Unescaped l y) (hb : Ows b) : Ends (y ++ b) := by
  cases h with
  | nil => exact ends_ows hb
  | @cons p l a' b' x y ha' hb' hx hy =>
    simp only [List.append_assoc, List.cons_append]
    exact ends_ws_semi ha'

theorem more_params {l : List (Bytes × Bytes)} {y b : Bytes} (h : ParametersText Unescaped l y) (hb : Ows b) : moreParameters (y ++ b) = [] := by
  cases h with
  | nil => exact more_end hb
  | @cons p l a' b' x y ha' hb' hx hy =>
    simp only [List.append_assoc, List.cons_append]
    rw [moreParameters.eq_def]
    split
    · rfl
    · have e := dropWhile_ows (r := asc ';' :: (b' ++ (x ++ (y ++ b)))) ha' (by intro c hc; simp at hc; subst hc; decide)
      split
      · rfl
      · rename_i hp
        rw [e] at hp
        have : parameter (asc ';' :: (b' ++ (x ++ (y ++ b)))) = none := by
          have : name (asc ';' :: (b' ++ (x ++ (y ++ b)))) = none := by
            rw [name, if_neg (by decide)]
          rw [parameter, this]
        rw [this] at hp; cases hp

/-- The text of a media type is parsed to its parts, but only the first parameter is kept. -/
theorem parse_spec {t : MediaType} {text : Bytes} (h : MediaTypeText Unescaped t text) :
    parseMediaType text = { t with parameters := t.parameters.take 1 } := by
  obtain ⟨a, b, sub, ps, ha, hb, ht, hs, hps, rfl⟩ := h
  have hslash : ¬ NameChar (asc '/') := not_nameChar (by decide)
  unfold parseMediaType
  have e : a ++ t.type ++ asc '/' :: sub ++ ps ++ b = a ++ (t.type ++ asc '/' :: (sub ++ (ps ++ b))) := by simp
  rw [e, dropWhile_ows ha (name_head ht)]
  unfold grammar
  rw [name_append ht (ends_cons hslash)]
  simp only [↓reduceIte]
  generalize hpar : t.parameters = params at hps
  cases hps with
  | nil =>
    rw [List.nil_append, subtype_spec hs (ends_ows hb) (ows_plus hb)]
    simp only [ows_end hb]
    cases t; simp_all
  | @cons p l a' b' x y ha' hb' hx hy =>
    have e2 : a' ++ asc ';' :: b' ++ x ++ y ++ b = a' ++ asc ';' :: (b' ++ (x ++ (y ++ b))) := by simp
    rw [e2, subtype_spec hs (ends_ws_semi ha') (plus_ws_semi ha')]
    simp only
    rw [dropWhile_ows ha' (by intro c hc; simp at hc; subst hc; decide)]
    simp only [↓reduceIte]
    have hxn : ∀ c, (x ++ (y ++ b)).head? = some c → ws c = false := by
      rcases hx with ⟨h1, ⟨_, rfl⟩ | ⟨q, _, rfl⟩⟩ <;> rw [List.append_assoc]
      · exact name_head h1
      · rw [List.append_assoc]; exact name_head h1
    rw [dropWhile_ows hb' hxn]
    have : parameters (x ++ (y ++ b)) = [p] := by
      unfold parameters
      rw [parameter_spec hx (ends_params hy hb)]
      simp [more_params hy hb]
    rw [this]
    cases t; simp_all

theorem nameChar_quote {c : UInt8} (h : NameChar c) : mustQuote c = false := by
  revert h
  rw [← nameChar_iff]
  exact forallU8 (P := fun c => (alnum c || restricted c) = true → mustQuote c = false) (by decide +kernel) c

theorem qtext_plain : ∀ {v : Bytes}, asc '"' ∉ v → asc '\\' ∉ v → asc '\r' ∉ v → qtext v = v
  | [], _, _, _ => rfl
  | c :: v, h1, h2, h3 => by
    have ih := qtext_plain (v := v) (fun h => h1 (by simp [h])) (fun h => h2 (by simp [h])) (fun h => h3 (by simp [h]))
    have e1 : c ≠ asc '"' := by rintro rfl; simp at h1
    have e2 : c ≠ asc '\\' := by rintro rfl; simp at h2
    have e3 : c ≠ asc '\r' := by rintro rfl; simp at h3
    simp [qtext, e1, e2, e3, ih]

/-- A parameter that is printed in a way the parser understands. -/
def Printable (p : Bytes × Bytes) : Prop :=
  RestrictedName p.1 ∧ (RestrictedName p.2 ∨ ((∃ c ∈ p.2, mustQuote c = true) ∧ asc '"' ∉ p.2 ∧ asc '\\' ∉ p.2 ∧ asc '\r' ∉ p.2))

theorem printValue_spec {p : Bytes × Bytes} (h : Printable p) : ParameterText Unescaped p (p.1 ++ asc '=' :: printValue p.2) := by
  obtain ⟨h1, h2⟩ := h
  refine ⟨h1, ?_⟩
  rcases h2 with h2 | ⟨⟨c, hc, hq⟩, ha, hb, hr⟩
  · left
    refine ⟨h2, ?_⟩
    have : p.2.any mustQuote = false := by
      rw [List.any_eq_false]; intro c hc; rw [nameChar_quote (h2.2.2 c hc)]; simp
    simp [printValue, this]
  · right
    refine ⟨p.2, ⟨rfl, ha, hb⟩, ?_⟩
    have : p.2.any mustQuote = true := by rw [List.any_eq_true]; exact ⟨c, hc, hq⟩
    simp [printValue, this, qtext_plain ha hb hr]

theorem print_params : ∀ {l : List (Bytes × Bytes)}, (∀ p ∈ l, Printable p) →
    ParametersText Unescaped l ((l.filter fun p => !p.1.isEmpty).flatMap fun p => str "; " ++ p.1 ++ asc '=' :: printValue p.2)
  | [], _ => .nil
  | p :: l, h => by
    have hp := h p (by simp)
    have ih := print_params (l := l) (fun q hq => h q (by simp [hq]))
    have hne : (!p.1.isEmpty) = true := by
      have := restricted_ne hp.1
      cases h : p.1 <;> simp_all
    rw [List.filter_cons, if_pos hne, List.flatMap_cons]
    have := ParametersText.cons (a := []) (b := [asc ' ']) (by intro c hc; cases hc) (by intro c hc; simp at hc; exact .inl hc) (printValue_spec hp) ih
    have e : str "; " ++ p.1 ++ asc '=' :: printValue p.2 = [] ++ asc ';' :: [asc ' '] ++ (p.1 ++ asc '=' :: printValue p.2) := by
      rw [show str "; " = [asc ';', asc ' '] from by decide]; simp
    rw [e]; exact this

/-- A printed media type is a text of it. -/
theorem print_spec {t : MediaType} {sub : Bytes} (h1 : RestrictedName t.type) (h2 : SubtypeText t.subtype t.suffix sub)
    (h3 : ∀ p ∈ t.parameters, Printable p) : MediaTypeText Unescaped t (print t) := by
  refine ⟨[], [], sub, _, by simp [Ows], by simp [Ows], h1, h2, print_params h3, ?_⟩
  have e1 : t.type.isEmpty = false := by
    have := restricted_ne h1
    cases h : t.type <;> simp_all
  have e2 : t.subtype.isEmpty = false := by
    rcases h2 with ⟨_, h, _⟩ | ⟨_, ⟨names, hn, hr, h⟩, _⟩
    · have := restricted_ne h
      cases h : t.subtype <;> simp_all
    · cases names with
      | nil => exact absurd rfl hn
      | cons n names =>
        have := restricted_ne (hr n (by simp))
        cases n with
        | nil => exact absurd rfl this
        | cons c n => cases names <;> simp [h, List.intercalate]
  have e3 : sub = t.subtype ++ (if t.suffix.isEmpty then [] else asc '+' :: t.suffix) := by
    rcases h2 with ⟨h, _, rfl⟩ | ⟨h, _, rfl⟩
    · simp [h]
    · have := restricted_ne h
      rw [if_neg]; simpa using this
  rw [e3]
  unfold print
  rw [e1, e2]
  simp

end Verif.MediaType
