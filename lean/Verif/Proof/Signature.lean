import Verif.Model.Signature
import Verif.Proof.Text
import Verif.Spec.Signature
/-! Proofs about signatures. -/
namespace Verif.Text
open Verif Verif.Spec

/-! ## Backticks -/

theorem strip_cases (s : Bytes) : stripBackticks s = s ∨
    ∃ n t r, 0 < n ∧ s = ticks n ++ t ++ ticks n ++ r ∧ stripBackticks s = trim t := by
  unfold stripBackticks
  split
  · exact .inl rfl
  · rename_i hc
    simp only [not_or, Decidable.not_not] at hc
    cases s with
    | nil => simp at hc
    | cons c s =>
      have hcc : c = asc '`' := by simpa using hc.1
      subst hcc
      obtain ⟨l, d, hl, hs, hd, hr⟩ := retrieve_parts (asc '`') s
      rw [hr]
      cases hf : findSub (List.replicate l (asc '`')) d with
      | none => simp
      | some e =>
        obtain ⟨r, he, hle⟩ := findSub_some hf
        simp only [↓reduceIte]
        have hne : (d.take e) ≠ [] := by
          intro h0
          rw [h0] at he
          apply hd
          rw [he]
          obtain ⟨k, rfl⟩ : ∃ k, l = k + 1 := ⟨l - 1, by omega⟩
          simp [List.replicate_succ]
        refine .inr ⟨l, d.take e, r, hl, ?_, ?_⟩
        · rw [hs]; conv => lhs; rw [he]
          simp [ticks]
        · rw [if_neg (by simpa using hne)]

theorem strip_plain {s : Bytes} (h : s.head? ≠ some (asc '`') ∨ s.getLast? ≠ some (asc '`')) : stripBackticks s = s := by
  unfold stripBackticks; rw [if_pos h]

theorem replicate_prefix {c : UInt8} {n : Nat} {b q : Bytes} (h : List.replicate n c <+: b ++ q) :
    List.replicate n c <+: b ∨ ∀ x ∈ b, x = c := by
  rcases List.prefix_or_prefix_of_prefix h (List.prefix_append b q) with h | h
  · exact .inl h
  · exact .inr fun x hx => (List.mem_replicate.1 (h.subset hx)).2

theorem strip_enclosed {n : Nat} {t : Bytes} (hn : 0 < n) (h1 : t ≠ []) (h2 : t.head? ≠ some (asc '`')) (h3 : t.getLast? ≠ some (asc '`'))
    (h4 : ¬ ticks n <:+: t) : stripBackticks (ticks n ++ t ++ ticks n) = trim t := by
  obtain ⟨k, rfl⟩ : ∃ k, n = k + 1 := ⟨n - 1, by omega⟩
  have hhead : (ticks (k + 1) ++ t ++ ticks (k + 1)).head? = some (asc '`') := by simp [ticks, List.replicate_succ]
  have hlast : (ticks (k + 1) ++ t ++ ticks (k + 1)).getLast? = some (asc '`') := by
    rw [getLast?_append_ne_nil _ (by simp [ticks])]
    simp [ticks, List.replicate_succ']
  have hs : ticks (k + 1) ++ t ++ ticks (k + 1) = asc '`' :: (ticks k ++ t ++ ticks (k + 1)) := by simp [ticks, List.replicate_succ]
  unfold stripBackticks
  rw [if_neg (by simp only [hhead, hlast]; simp), hs]
  obtain ⟨l, d, hl, hd, hdh, hr⟩ := retrieve_parts (asc '`') (ticks k ++ t ++ ticks (k + 1))
  have hld : l = k + 1 ∧ d = t ++ ticks (k + 1) := by
    rw [← hs] at hd
    have e1 : ∀ m (x : Bytes), x.head? ≠ some (asc '`') → (ticks m ++ x).takeWhile (· = asc '`') = ticks m := by
      intro m x hx
      rw [List.takeWhile_append_of_pos (by intro c hc; simp [ticks] at hc; simp [hc.2])]
      cases x with
      | nil => simp
      | cons c x => 
        have : c ≠ asc '`' := by simpa using hx
        simp [this]
    have e2 := e1 (k + 1) (t ++ ticks (k + 1)) (by
      cases t with
      | nil => exact absurd rfl h1
      | cons c t => simpa using h2)
    have e3 := e1 l d hdh
    rw [← List.append_assoc, hd] at e2
    have e4 : ticks l = ticks (k + 1) := by rw [← e2, ← e3]; rfl
    have e5 : l = k + 1 := by simpa [ticks] using congrArg List.length e4
    subst e5
    refine ⟨rfl, ?_⟩
    rw [List.append_assoc] at hd
    exact (List.append_cancel_left hd).symm
  obtain ⟨rfl, rfl⟩ := hld
  rw [hr]
  have := findSub_eq (p := List.replicate (k + 1) (asc '`')) (t := t) (r := []) (by
    intro a b hab hb hp
    rw [List.append_nil] at hp
    rcases replicate_prefix hp with hp | hp
    · exact h4 (hp.isInfix.trans ⟨a, [], by simp [hab]⟩)
    · apply h3
      rw [hab, getLast?_append_ne_nil a hb]
      obtain ⟨c, hc⟩ : ∃ c, b.getLast? = some c := by
        cases hg : b.getLast? with
        | none => exact absurd (List.getLast?_eq_none_iff.1 hg) hb
        | some c => exact ⟨c, rfl⟩
      rw [hc, hp c (List.mem_of_getLast? hc)])
  rw [List.append_nil] at this
  unfold ticks
  rw [this]
  simp only [↓reduceIte, List.take_left]
  rw [if_neg (by simpa using h1)]

theorem retrieve_enclosed {n : Nat} {t r : Bytes} (hn : 0 < n) (h1 : t ≠ []) (h2 : t.head? ≠ some (asc '`')) (h3 : t.getLast? ≠ some (asc '`'))
    (h4 : ¬ ticks n <:+: t) : retrieveEscaped (ticks n ++ t ++ ticks n ++ r) 0 = (ticks n ++ t ++ ticks n, r) := by
  obtain ⟨k, rfl⟩ : ∃ k, n = k + 1 := ⟨n - 1, by omega⟩
  have hs : ticks (k + 1) ++ t ++ ticks (k + 1) ++ r = asc '`' :: (ticks k ++ t ++ ticks (k + 1) ++ r) := by simp [ticks, List.replicate_succ]
  rw [hs]
  obtain ⟨l, d, hl, hd, hdh, hr⟩ := retrieve_parts (asc '`') (ticks k ++ t ++ ticks (k + 1) ++ r)
  have hld : l = k + 1 ∧ d = t ++ ticks (k + 1) ++ r := by
    rw [← hs] at hd
    have e1 : ∀ m (x : Bytes), x.head? ≠ some (asc '`') → (ticks m ++ x).takeWhile (· = asc '`') = ticks m := by
      intro m x hx
      rw [List.takeWhile_append_of_pos (by intro c hc; simp [ticks] at hc; simp [hc.2])]
      cases x with
      | nil => simp
      | cons c x =>
        have : c ≠ asc '`' := by simpa using hx
        simp [this]
    have e2 := e1 (k + 1) (t ++ ticks (k + 1) ++ r) (by
      cases t with
      | nil => exact absurd rfl h1
      | cons c t => simpa using h2)
    have e3 := e1 l d hdh
    rw [← List.append_assoc, ← List.append_assoc, hd] at e2
    have e4 : ticks l = ticks (k + 1) := by rw [← e2, ← e3]; rfl
    have e5 : l = k + 1 := by simpa [ticks] using congrArg List.length e4
    subst e5
    refine ⟨rfl, ?_⟩
    rw [List.append_assoc, List.append_assoc] at hd
    rw [← List.append_cancel_left hd]; simp
  obtain ⟨rfl, rfl⟩ := hld
  rw [hr]
  have := findSub_eq (p := List.replicate (k + 1) (asc '`')) (t := t) (r := r) (by
    intro a b hab hb hp
    rw [List.append_assoc] at hp
    rcases replicate_prefix hp with hp | hp
    · exact h4 (hp.isInfix.trans ⟨a, [], by simp [hab]⟩)
    · apply h3
      rw [hab, getLast?_append_ne_nil a hb]
      obtain ⟨c, hc⟩ : ∃ c, b.getLast? = some c := by
        cases hg : b.getLast? with
        | none => exact absurd (List.getLast?_eq_none_iff.1 hg) hb
        | some c => exact ⟨c, rfl⟩
      rw [hc, hp c (List.mem_of_getLast? hc)])
  unfold ticks
  rw [this]
  simp only [Bool.false_eq_true, ↓reduceIte]
  rw [List.take_left' (by simp), List.drop_left' (by simp)]
  simp

/-- A balanced text does not end with a comma that stops it. -/
theorem balanced_last {stops : List UInt8} {x : Bytes} (h : Balanced stops x) (hc : asc ',' ∈ stops) : x.getLast? ≠ some (asc ',') := by
  induction h with
  | nil => simp
  | @char stops c r h1 h2 hr ih =>
    intro hl
    cases r with
    | nil => simp at hl; subst hl; exact h2 hc
    | cons d r => rw [List.getLast?_cons_cons] at hl; exact ih hc hl
  | @square stops x r _ _ _ ih =>
    intro hl
    cases r with
    | nil => rw [getLast?_append_ne_nil _ (by simp)] at hl; exact absurd hl (by decide)
    | cons d r =>
      rw [getLast?_append_ne_nil _ (by simp), List.getLast?_cons_cons] at hl
      exact ih hc hl
  | @round stops x r _ _ _ ih =>
    intro hl
    cases r with
    | nil => rw [getLast?_append_ne_nil _ (by simp)] at hl; exact absurd hl (by decide)
    | cons d r =>
      rw [getLast?_append_ne_nil _ (by simp), List.getLast?_cons_cons] at hl
      exact ih hc hl
  | @escape stops n t r hn _ _ _ _ _ ih =>
    intro hl
    cases r with
    | nil =>
      obtain ⟨k, rfl⟩ : ∃ k, n = k + 1 := ⟨n - 1, by omega⟩
      rw [List.append_nil, getLast?_append_ne_nil _ (by simp [ticks])] at hl
      simp [ticks, List.replicate_succ'] at hl
      exact absurd hl (by decide)
    | cons d r =>
      rw [getLast?_append_ne_nil _ (by simp)] at hl
      exact ih hc hl

end Verif.Text

namespace Verif.Signature
open Verif Verif.Text Verif.Spec

/-! ## Identifiers -/

/-- What is left at the end of a loop. -/
def rest (s : Bytes) (i : Nat) : Bytes := if i = s.length then [] else s

theorem take_eq_iff_prefix {p s : Bytes} : s.take p.length = p ↔ p <+: s := by
  rw [List.prefix_iff_eq_take]; exact eq_comm

theorem getElem?_drop {s : Bytes} {i : Nat} {c : UInt8} (h : s[i]? = some c) : s.drop i = c :: s.drop (i + 1) := by
  obtain ⟨hi, h⟩ := List.getElem?_eq_some_iff.1 h
  rw [List.drop_eq_getElem_cons hi, h]

theorem retrieve_at {s : Bytes} {i : Nat} {c : UInt8} (hc : s[i]? = some c) (h : (retrieveEscaped s i).1 ≠ []) :
    s.drop i = (retrieveEscaped s i).1 ++ (retrieveEscaped s i).2 ∧ (retrieveEscaped s i).1.getLast? = some c := by
  have hi : i < s.length := (List.getElem?_eq_some_iff.1 hc).1
  obtain ⟨h1, h2⟩ := retrieve_drop s i (by omega)
  rw [h2 h, h1]
  rw [h1, getElem?_drop hc] at h
  obtain ⟨n, t, h3, hn, h4, _⟩ := retrieve_some h
  rw [getElem?_drop hc]
  constructor
  · rw [h4, ← h3]
  · rw [h4, getLast?_append_ne_nil _ (by simp; omega)]
    obtain ⟨k, rfl⟩ : ∃ k, n = k + 1 := ⟨n - 1, by omega⟩
    simp [List.replicate_succ']

theorem identifierLoop_spec (t : Traits) (s : Bytes) (i : Nat) (id : Bytes) (hi : i ≤ s.length) :
    (identifierLoop t s i id).2.2 ++ rest (identifierLoop t s i id).1 (identifierLoop t s i id).2.1 = id ++ s.drop i ∧
    (rest (identifierLoop t s i id).1 (identifierLoop t s i id).2.1 = [] ∨
      Stops t (rest (identifierLoop t s i id).1 (identifierLoop t s i id).2.1)) := by
  fun_induction identifierLoop t s i id with
  | case1 s i id h =>
    have : i = s.length := by rw [List.getElem?_eq_none_iff] at h; omega
    simp [rest, this]
  | case2 s i id c h hm he ih =>
    have := (List.getElem?_eq_some_iff.1 h).1
    obtain ⟨h1, h2⟩ := ih (by omega)
    rw [getElem?_drop h]
    exact ⟨by simpa using h1, h2⟩
  | case3 s i id c h hm he ih =>
    obtain ⟨h1, h2⟩ := ih (by simp)
    refine ⟨?_, h2⟩
    rw [(retrieve_at h he).1]
    simpa using h1
  | case4 s i id c h hm hstop =>
    have hd := getElem?_drop h
    have hr : rest (s.drop i) 0 = s.drop i := by rw [hd]; simp [rest]
    simp only [hr, true_and]
    right
    simp only [Bool.or_eq_true, Bool.and_eq_true, beq_iff_eq] at hstop
    rcases hstop with (⟨h1, h2⟩ | ⟨h1, h2⟩) | h1
    · exact .inl ⟨h1, by rw [hd, h2]; rfl⟩
    · exact .inr (.inl ⟨h1, by rw [hd, h2]; rfl⟩)
    · simp only [contentAt, Bool.and_eq_true, beq_iff_eq, take_eq_iff_prefix] at h1
      exact .inr (.inr h1)
  | case5 s i id c h hm hstop ih =>
    have := (List.getElem?_eq_some_iff.1 h).1
    obtain ⟨h1, h2⟩ := ih (by omega)
    rw [getElem?_drop h]
    exact ⟨by simpa using h1, h2⟩

/-- A plain identifier is taken as it is. -/
theorem identifierLoop_plain (t : Traits) (p q : Bytes) (hp : ∀ c ∈ p, c ∉ str "*_`") (hq : q = [] ∨ Stops t q)
    (hs : ∀ a b, p = a ++ b → b ≠ [] → ¬ Stops t (b ++ q)) (hq0 : ∀ c, q.head? = some c → c ∉ str "*_`") :
    ∀ pre id, rest (identifierLoop t (pre ++ p ++ q) pre.length id).1 (identifierLoop t (pre ++ p ++ q) pre.length id).2.1 = q ∧
      (identifierLoop t (pre ++ p ++ q) pre.length id).2.2 = id ++ p := by
  have stop_iff : ∀ (s : Bytes) (i : Nat) (c : UInt8), s[i]? = some c →
      (((t.values && c == t.valuesDelimiter) || (t.attributes && c == asc '(') || contentAt t s i) = true ↔ Stops t (s.drop i)) := by
    intro s i c h
    simp only [Bool.or_eq_true, Bool.and_eq_true, beq_iff_eq, contentAt, take_eq_iff_prefix, Stops, getElem?_drop h, List.head?_cons,
      Option.some.injEq, or_assoc]
  induction p with
  | nil =>
    intro pre id
    cases hq' : q with
    | nil =>
      rw [identifierLoop.eq_def]
      split
      · simp [rest]
      · rename_i h'; simp at h'
    | cons c q' =>
      have h : (pre ++ [] ++ c :: q')[pre.length]? = some c := by simp
      have hst : Stops t (c :: q') := by
        rcases hq with h0 | h0
        · rw [hq'] at h0; cases h0
        · rwa [hq'] at h0
      have hc : c ∉ str "*_`" := hq0 c (by rw [hq']; rfl)
      rw [identifierLoop.eq_def]
      split
      · rename_i h'; rw [h] at h'; cases h'
      · rename_i c' h'
        rw [h] at h'; cases h'
        rw [if_neg hc, if_pos ((stop_iff _ _ _ h).2 (by simpa using hst))]
        simp [rest]
  | cons c p ih =>
    intro pre id
    have h : (pre ++ (c :: p) ++ q)[pre.length]? = some c := by simp
    have hns : ¬ Stops t ((c :: p) ++ q) := hs [] (c :: p) rfl (by simp)
    rw [identifierLoop.eq_def]
    split
    · rename_i h'; rw [h] at h'; cases h'
    · rename_i c' h'
      rw [h] at h'; cases h'
      rw [if_neg (hp c (by simp)), if_neg (by
        rw [stop_iff _ _ _ h]; simpa using hns)]
      have := ih (fun d hd => hp d (by simp [hd])) (fun a b hab hb => hs (c :: a) b (by simp [hab]) hb) (pre ++ [c]) (id ++ [c])
      simpa using this

/-! ## Values -/

theorem trim_append_left {a t : Bytes} (ha : Blank a) : trim (a ++ t) = trim t := by
  obtain ⟨x, y, h1, h2, h3, h4⟩ := trim_spec t
  refine trim_unique ⟨a ++ x, y, ?_, ?_, h3, h4⟩
  · conv => lhs; rw [h1]
    simp
  · intro c hc
    rcases List.mem_append.1 hc with hc | hc
    · exact ha c hc
    · exact h2 c hc

/-- A text that does not end with white space. -/
def Solid (s : Bytes) : Prop := ∀ c, s.getLast? = some c → ¬ White c

theorem Solid.suffix {a b : Bytes} (h : Solid (a ++ b)) : Solid b := fun c hc => h c (getLast?_suffix hc)

theorem Solid.drop {s : Bytes} (h : Solid s) (i : Nat) : Solid (s.drop i) := by
  rw [← List.take_append_drop i s] at h; exact h.suffix

theorem Solid.trim_eq {s : Bytes} (h : Solid s) : ∃ a, s = a ++ trim s ∧ Blank a := by
  obtain ⟨a, b, h1, h2, h3, h4⟩ := trim_spec s
  cases hb : b.getLast? with
  | none =>
    rw [List.getLast?_eq_none_iff.1 hb, List.append_nil] at h1
    exact ⟨a, h1, h2⟩
  | some c =>
    have := h c (by rw [h1]; exact getLast?_suffix hb)
    exact absurd (h3 c (List.mem_of_getLast? hb)) this

theorem valuesLoop_spec (t : Traits) (s : Bytes) (i : Nat) (v : Bytes) (vs : List Bytes) (hi : i ≤ s.length) (hs : Solid s) :
    ∃ ps last, v ++ s.drop i = commas ps ++ last ++ rest (valuesLoop t s i v vs).1 (valuesLoop t s i v vs).2.1 ∧
      (valuesLoop t s i v vs).2.2.2 = vs ++ ps.map (fun p => stripBackticks (trim p)) ∧
      trim (valuesLoop t s i v vs).2.2.1 = trim last ∧
      Solid (rest (valuesLoop t s i v vs).1 (valuesLoop t s i v vs).2.1) ∧
      (rest (valuesLoop t s i v vs).1 (valuesLoop t s i v vs).2.1 = [] ∨
        Stops { t with values := false } (rest (valuesLoop t s i v vs).1 (valuesLoop t s i v vs).2.1)) := by
  fun_induction valuesLoop t s i v vs with
  | case1 s i v vs h =>
    have : i = s.length := by rw [List.getElem?_eq_none_iff] at h; omega
    exact ⟨[], v, by simp [rest, this, commas], by simp, rfl, by simp [rest, this, Solid], .inl (by simp [rest, this])⟩
  | case2 s i v vs he h ih =>
    have := (List.getElem?_eq_some_iff.1 h).1
    obtain ⟨ps, last, h1, h2⟩ := ih (by omega) hs
    rw [getElem?_drop h]
    exact ⟨ps, last, by rw [← h1]; simp, h2⟩
  | case3 s i v vs he h ih =>
    have hr := (retrieve_at h he).1
    obtain ⟨ps, last, h1, h2⟩ := ih (by simp) (by have := hs.drop i; rw [hr] at this; exact this.suffix)
    exact ⟨ps, last, by rw [hr, ← h1]; simp, h2⟩
  | case4 s i v vs h hc ih =>
    obtain ⟨a, ha, hb⟩ := (hs.drop (i + 1)).trim_eq
    have hsol : Solid (trim (s.drop (i + 1))) := by
      have := hs.drop (i + 1); rw [ha] at this; exact this.suffix
    obtain ⟨ps, last, h1, h2, h3, h4⟩ := ih (by simp) hsol
    have hd : s.drop i = asc ',' :: (a ++ trim (s.drop (i + 1))) := by rw [getElem?_drop h, ← ha]
    rw [hd]
    cases ps with
    | nil =>
      refine ⟨[v], a ++ last, ?_, by simpa using h2, by rw [h3, trim_append_left hb], h4⟩
      simp [commas] at h1 ⊢
      exact h1
    | cons p ps =>
      refine ⟨v :: (a ++ p) :: ps, last, ?_, by simpa [trim_append_left hb] using h2, h3, h4⟩
      simp [commas] at h1 ⊢
      exact h1
  | case5 s i v vs c h hm hcom hstop =>
    have hd := getElem?_drop h
    have hr : rest (s.drop i) 0 = s.drop i := by rw [hd]; simp [rest]
    simp only [hr]
    refine ⟨[], v, by simp [commas], by simp, rfl, hs.drop i, .inr ?_⟩
    simp only [Bool.or_eq_true, Bool.and_eq_true, beq_iff_eq] at hstop
    rcases hstop with ⟨h1, h2⟩ | h1
    · exact .inr (.inl ⟨h1, by rw [hd, h2]; rfl⟩)
    · simp only [contentAt, Bool.and_eq_true, beq_iff_eq, take_eq_iff_prefix] at h1
      exact .inr (.inr h1)
  | case6 s i v vs c h hm hcom hstop ih =>
    have := (List.getElem?_eq_some_iff.1 h).1
    obtain ⟨ps, last, h1, h2⟩ := ih (by omega) hs
    rw [getElem?_drop h]
    exact ⟨ps, last, by rw [← h1]; simp, h2⟩

theorem bare_solid {s : Bytes} (h : Bare s) : Solid s := h.2

theorem trim_append_right {t b : Bytes} (hb : Blank b) : trim (t ++ b) = trim t := by
  obtain ⟨x, y, h1, h2, h3, h4⟩ := trim_spec t
  refine trim_unique ⟨x, y ++ b, ?_, h2, ?_, h4⟩
  · conv => lhs; rw [h1]
    simp
  · intro c hc
    rcases List.mem_append.1 hc with hc | hc
    · exact h3 c hc
    · exact hb c hc

/-! ## Attributes -/

/-- What the matching of brackets returns. -/
def Matched (close : UInt8) (split clear : Bool) (ret s : Bytes) (i : Nat) (r : Bytes × Bytes) : Prop :=
  (∃ mid b, s.drop i = mid ++ b :: r.2 ∧
    ((b = close ∧ r.1 = ret ++ mid ++ (if split then [] else [b]) ∧ (split = true → r.1.getLast? ≠ some (asc ','))) ∨
     (split = true ∧ b = asc ',' ∧ r.1 = ret ++ mid ++ [b]))) ∨
  (r.1 = ret ++ s.drop i ∧ (r.2 = [] ∨ clear = false ∧ r.2 <:+ s ∧ (split = true → r.1.getLast? ≠ some (asc ','))))

theorem Matched.step {close : UInt8} {split clear : Bool} {ret s s' a : Bytes} {i j : Nat} {r : Bytes × Bytes}
    (h : Matched close split clear (ret ++ a) s' j r) (hs : s.drop i = a ++ s'.drop j) (hsuf : s' <:+ s) :
    Matched close split clear ret s i r := by
  rcases h with ⟨mid, b, h1, h2⟩ | ⟨h1, h2⟩
  · refine .inl ⟨a ++ mid, b, by rw [hs, h1]; simp, ?_⟩
    rcases h2 with ⟨h2, h3, h4⟩ | ⟨h2, h3, h4⟩
    · exact .inl ⟨h2, by rw [h3]; simp, h4⟩
    · exact .inr ⟨h2, h3, by rw [h4]; simp⟩
  · refine .inr ⟨by rw [h1, hs]; simp, ?_⟩
    rcases h2 with h2 | ⟨h2, h3, h4⟩
    · exact .inl h2
    · exact .inr ⟨h2, h3.trans hsuf, h4⟩

theorem matchLoop_spec (n : Nat) : ∀ s i close split clear ret, i ≤ s.length → s.length - i < n → close ≠ asc ',' →
    (split = true → ret.getLast? ≠ some (asc ',') ∨ s = []) →
    ∃ r, matchLoop n s i close split clear ret = .ok r ∧ Matched close split clear ret s i r := by
  induction n with
  | zero => intro s i close split clear ret hi hn; omega
  | succ n ih =>
    intro s i close split clear ret hi hn hclose hlast
    rw [matchLoop]
    cases hc : s[i]? with
    | none =>
      have : i = s.length := by rw [List.getElem?_eq_none_iff] at hc; omega
      refine ⟨_, rfl, .inr ⟨by simp [this], ?_⟩⟩
      cases clear with
      | true => simp [this]
      | false =>
        simp only [Bool.false_eq_true, and_false, ↓reduceIte, List.suffix_refl, true_and]
        by_cases h : s = []
        · exact .inl h
        · exact .inr fun hsp => (hlast hsp).resolve_right h
    | some c =>
      have hi' := (List.getElem?_eq_some_iff.1 hc).1
      have hd := getElem?_drop hc
      have hs0 : s ≠ [] := by rintro rfl; simp at hi'
      have hl : split = true → ret.getLast? ≠ some (asc ',') := fun h => (hlast h).resolve_right hs0
      have hchar : (split = true → c ≠ asc ',') → ∃ r, matchLoop n s (i + 1) close split clear (ret ++ [c]) = .ok r ∧
          Matched close split clear ret s i r := by
        intro hne
        obtain ⟨r, h1, h2⟩ := ih s (i + 1) close split clear (ret ++ [c]) (by omega) (by omega) hclose (by
          intro h; left; simp; exact hne h)
        exact ⟨r, h1, h2.step (by rw [hd]; rfl) (List.suffix_refl _)⟩
      have hnest : ∀ b, b ≠ asc ',' → ∃ r, ((matchLoop n s (i + 1) b false true [c]).bind fun r =>
          matchLoop n r.2 0 close split clear (ret ++ r.1)) = .ok r ∧ Matched close split clear ret s i r := by
        intro b hb
        obtain ⟨r, h1, h2⟩ := ih s (i + 1) b false true [c] (by omega) (by omega) hb (by simp)
        rw [h1]
        have h3 : r.1 ++ r.2 = s.drop i ∧ (r.1.getLast? ≠ some (asc ',') ∨ r.2 = []) ∧ r.2.length < s.length - i := by
          rcases h2 with ⟨mid, b', h3, h4⟩ | ⟨h3, h4⟩
          · rcases h4 with ⟨h4, h5, h6⟩ | ⟨h4, _⟩
            · subst h4
              have := congrArg List.length h3
              simp at this
              refine ⟨by rw [h5, hd, h3]; simp, .inl ?_, by omega⟩
              rw [h5, getLast?_append_ne_nil _ (by simp)]; simpa using hb
            · cases h4
          · rcases h4 with h4 | ⟨h4, _⟩
            · refine ⟨by rw [h3, h4, hd]; simp, .inr h4, by rw [h4]; simp; omega⟩
            · cases h4
        obtain ⟨r', h4, h5⟩ := ih r.2 0 close split clear (ret ++ r.1) (by simp) (by omega) hclose (by
          intro h
          rcases h3.2.1 with h6 | h6
          · left
            have : r.1 ≠ [] := by
              rcases h2 with ⟨mid, b', _, ⟨_, h7, _⟩ | ⟨h7, _⟩⟩ | ⟨h7, _⟩
              · rw [h7]; simp
              · cases h7
              · rw [h7]; simp
            rw [getLast?_append_ne_nil _ this]; exact h6
          · exact .inr h6)
        refine ⟨r', h4, h5.step (by rw [← h3.1]; simp) ?_⟩
        exact ((List.suffix_append r.1 r.2).trans (by rw [h3.1]; exact List.suffix_refl _)).trans (List.drop_suffix i s)
      simp only []
      split
      · rename_i hct
        split
        · exact hchar (by rw [hct]; intro _; decide)
        · rename_i he
          obtain ⟨h1, h2⟩ := retrieve_at hc he
          have := congrArg List.length h1
          have h0 : 0 < (retrieveEscaped s i).1.length := List.length_pos_iff.2 he
          simp at this
          obtain ⟨r, h3, h4⟩ := ih (retrieveEscaped s i).2 0 close split clear (ret ++ (retrieveEscaped s i).1) (by simp) (by omega) hclose (by
            intro h; left
            rw [getLast?_append_ne_nil _ he, h2, hct]; decide)
          refine ⟨r, h3, h4.step (by rw [h1]; simp) ?_⟩
          exact ((List.suffix_append _ _).trans (by rw [← h1]; exact List.suffix_refl _)).trans (List.drop_suffix i s)
      · split
        · exact hnest _ (by decide)
        · split
          · exact hnest _ (by decide)
          · split
            · rename_i hcc
              refine ⟨_, rfl, .inl ⟨[], c, by simpa using hd, .inl ⟨hcc, ?_, ?_⟩⟩⟩
              · cases split <;> simp
              · intro h; simp only [h, ↓reduceIte]; exact hl h
            · split
              · rename_i hcc
                simp only [Bool.and_eq_true, decide_eq_true_eq] at hcc
                exact ⟨_, rfl, .inl ⟨[], c, by simpa using hd, .inr ⟨hcc.1, hcc.2, by simp⟩⟩⟩
              · rename_i hcc
                refine hchar (fun h => ?_)
                simp [h] at hcc; exact hcc

theorem matchBrackets_spec {s : Bytes} (hs : s ≠ []) : ∃ r, matchBrackets s = .ok r ∧ Matched (asc ')') true false [] s 1 r := by
  have := List.length_pos_iff.2 hs
  exact matchLoop_spec _ s 1 _ _ _ [] (by omega) (by omega) (by decide) (by simp)

theorem attributesLoop_fuel (n : Nat) : ∀ s as, s ≠ [] → s.length < n → attributesLoop n s as ≠ .error .fuel := by
  induction n with
  | zero => intro s as _ h; omega
  | succ n ih =>
    intro s as hs hn
    obtain ⟨r, h1, h2⟩ := matchBrackets_spec hs
    rw [attributesLoop, h1]
    show (match r.1.getLast? with | none => _ | some c => _) ≠ _
    split
    · simp
    · rename_i c hc
      split
      · simp
      · rename_i hcc
        simp only [ne_eq, Decidable.not_not] at hcc
        subst hcc
        refine ih _ _ (by simp) ?_
        rcases h2 with ⟨mid, b, h3, h4⟩ | ⟨h3, h4⟩
        · rcases h4 with ⟨_, _, h5⟩ | _
          · exact absurd hc (h5 rfl)
          · have := congrArg List.length h3
            simp at this ⊢; omega
        · rcases h4 with h4 | ⟨_, _, h4⟩
          · rw [h4]
            rw [h3] at hc
            have : s.drop 1 ≠ [] := by intro h; rw [h] at hc; simp at hc
            have := List.length_pos_iff.2 this
            simp at this ⊢; omega
          · exact absurd hc (h4 rfl)

theorem parseAttributes_fuel (s : Bytes) : parseAttributes s ≠ .error .fuel := by
  unfold parseAttributes
  split
  · simp
  · rename_i h
    simp only [ne_eq, Decidable.not_not] at h
    have : s ≠ [] := by rintro rfl; simp at h
    have := attributesLoop_fuel (s.length + 1) s [] this (by omega)
    cases h' : attributesLoop (s.length + 1) s [] with
    | error e => rw [h'] at this; intro h2; cases h2; exact this rfl
    | ok r => intro h2; cases h2

/-- A balanced text is passed over. -/
theorem matchLoop_balanced {stops : List UInt8} {x : Bytes} (hx : Balanced stops x) : ∀ (q s : Bytes) (i n : Nat) (close : UInt8)
    (split clear : Bool) (ret : Bytes), s.drop i = x ++ q → i ≤ s.length → s.length - i < n → close ∈ stops →
    (split = true → asc ',' ∈ stops) →
    ∃ n' s' j, s'.length - j < n' ∧ j ≤ s'.length ∧ s'.drop j = q ∧
      matchLoop n s i close split clear ret = matchLoop n' s' j close split clear (ret ++ x) := by
  induction hx with
  | nil =>
    intro q s i n close split clear ret hs hi hn _ _
    exact ⟨n, s, i, hn, hi, by simpa using hs, by simp⟩
  | @char stops c r h1 h2 hr ih =>
    intro q s i n close split clear ret hs hi hn hclose hcomma
    obtain ⟨m, rfl⟩ : ∃ m, n = m + 1 := ⟨n - 1, by omega⟩
    have hc : s[i]? = some c := by
      have := List.getElem?_drop (xs := s) (i := i) (j := 0)
      rw [hs] at this; simpa using this.symm
    have hi' := (List.getElem?_eq_some_iff.1 hc).1
    have hd : s.drop (i + 1) = r ++ q := by
      rw [getElem?_drop hc] at hs
      simpa using hs
    obtain ⟨n', s', j, h3, h4, h5, h6⟩ := ih q s (i + 1) m close split clear (ret ++ [c]) hd (by omega) (by omega) hclose hcomma
    refine ⟨n', s', j, h3, h4, h5, ?_⟩
    rw [matchLoop, hc]
    have e1 : c ≠ asc '`' := by rintro rfl; exact h1 (by decide)
    have e2 : c ≠ asc '[' := by rintro rfl; exact h1 (by decide)
    have e3 : c ≠ asc '(' := by rintro rfl; exact h1 (by decide)
    have e4 : c ≠ close := by rintro rfl; exact h2 hclose
    have e5 : ¬ ((split && decide (c = asc ',')) = true) := by
      simp only [Bool.and_eq_true, decide_eq_true_eq]; rintro ⟨h, rfl⟩; exact h2 (hcomma h)
    simp only [e1, e2, e3, e4, ↓reduceIte]
    rw [if_neg e5, h6]
    simp
  | @square stops x r hx hr ihx ihr =>
    intro q s i n close split clear ret hs hi hn hclose hcomma
    obtain ⟨m, rfl⟩ : ∃ m, n = m + 1 := ⟨n - 1, by omega⟩
    have hc : s[i]? = some (asc '[') := by
      have := List.getElem?_drop (xs := s) (i := i) (j := 0)
      rw [hs] at this; simpa using this.symm
    have hi' := (List.getElem?_eq_some_iff.1 hc).1
    have hd : s.drop (i + 1) = x ++ (asc ']' :: r ++ q) := by
      rw [getElem?_drop hc] at hs
      simpa using hs
    obtain ⟨n', s', j, h3, h4, h5, h6⟩ := ihx _ s (i + 1) m (asc ']') false true [asc '['] hd (by omega) (by omega) (by decide) (by simp)
    obtain ⟨m', rfl⟩ : ∃ m', n' = m' + 1 := ⟨n' - 1, by omega⟩
    have hc' : s'[j]? = some (asc ']') := by
      have := List.getElem?_drop (xs := s') (i := j) (j := 0)
      rw [h5] at this; simpa using this.symm
    have hd' : s'.drop (j + 1) = r ++ q := by
      rw [getElem?_drop hc'] at h5
      simpa using h5
    have hstep : matchLoop (m' + 1) s' j (asc ']') false true ([asc '['] ++ x) = .ok ([asc '['] ++ x ++ [asc ']'], r ++ q) := by
      rw [matchLoop, hc', hd']
      simp +decide
    have hlen := congrArg List.length hd
    simp at hlen
    obtain ⟨n'', s'', j', g1, g2, g3, g4⟩ := ihr q (r ++ q) 0 m close split clear (ret ++ ([asc '['] ++ x ++ [asc ']'])) (by simp) (by simp)
      (by simp; omega) hclose hcomma
    refine ⟨n'', s'', j', g1, g2, g3, ?_⟩
    have e1 : asc '[' ≠ asc '`' := by decide
    rw [matchLoop, hc]
    simp only [e1, ↓reduceIte]
    rw [h6, hstep]
    show matchLoop m (r ++ q) 0 close split clear _ = _
    rw [g4]
    simp
  | @round stops x r hx hr ihx ihr =>
    intro q s i n close split clear ret hs hi hn hclose hcomma
    obtain ⟨m, rfl⟩ : ∃ m, n = m + 1 := ⟨n - 1, by omega⟩
    have hc : s[i]? = some (asc '(') := by
      have := List.getElem?_drop (xs := s) (i := i) (j := 0)
      rw [hs] at this; simpa using this.symm
    have hi' := (List.getElem?_eq_some_iff.1 hc).1
    have hd : s.drop (i + 1) = x ++ (asc ')' :: r ++ q) := by
      rw [getElem?_drop hc] at hs
      simpa using hs
    obtain ⟨n', s', j, h3, h4, h5, h6⟩ := ihx _ s (i + 1) m (asc ')') false true [asc '('] hd (by omega) (by omega) (by decide) (by simp)
    obtain ⟨m', rfl⟩ : ∃ m', n' = m' + 1 := ⟨n' - 1, by omega⟩
    have hc' : s'[j]? = some (asc ')') := by
      have := List.getElem?_drop (xs := s') (i := j) (j := 0)
      rw [h5] at this; simpa using this.symm
    have hd' : s'.drop (j + 1) = r ++ q := by
      rw [getElem?_drop hc'] at h5
      simpa using h5
    have hstep : matchLoop (m' + 1) s' j (asc ')') false true ([asc '('] ++ x) = .ok ([asc '('] ++ x ++ [asc ')'], r ++ q) := by
      rw [matchLoop, hc', hd']
      simp +decide
    have hlen := congrArg List.length hd
    simp at hlen
    obtain ⟨n'', s'', j', g1, g2, g3, g4⟩ := ihr q (r ++ q) 0 m close split clear (ret ++ ([asc '('] ++ x ++ [asc ')'])) (by simp) (by simp)
      (by simp; omega) hclose hcomma
    refine ⟨n'', s'', j', g1, g2, g3, ?_⟩
    have e2 : asc '(' ≠ asc '[' := by decide
    have e1 : asc '(' ≠ asc '`' := by decide
    rw [matchLoop, hc]
    simp only [e1, e2, ↓reduceIte]
    rw [h6, hstep]
    show matchLoop m (r ++ q) 0 close split clear _ = _
    rw [g4]
    simp
  | @escape stops k t r hk h1 h2 h3 h4 hr ihr =>
    intro q s i n close split clear ret hs hi hn hclose hcomma
    obtain ⟨m, rfl⟩ : ∃ m, n = m + 1 := ⟨n - 1, by omega⟩
    obtain ⟨l, rfl⟩ : ∃ l, k = l + 1 := ⟨k - 1, by omega⟩
    have hc : s[i]? = some (asc '`') := by
      have := List.getElem?_drop (xs := s) (i := i) (j := 0)
      rw [hs] at this; simpa [ticks, List.replicate_succ] using this.symm
    have hi' := (List.getElem?_eq_some_iff.1 hc).1
    have hret : retrieveEscaped (s.drop i) 0 = (ticks (l + 1) ++ t ++ ticks (l + 1), r ++ q) := by
      have := retrieve_enclosed (n := l + 1) (t := t) (r := r ++ q) (by omega) h1 h2 h3 h4
      rw [hs]; simpa using this
    obtain ⟨g1, g2⟩ := retrieve_drop s i hi
    rw [hret] at g1 g2
    have hne : (retrieveEscaped s i).1 ≠ [] := by rw [g1]; simp [ticks]
    have g2 := g2 hne
    have hlen := congrArg List.length hs
    simp [ticks] at hlen
    obtain ⟨n'', s'', j', k1, k2, k3, k4⟩ := ihr q (r ++ q) 0 m close split clear (ret ++ (ticks (l + 1) ++ t ++ ticks (l + 1))) (by simp)
      (by simp) (by simp; omega) hclose hcomma
    refine ⟨n'', s'', j', k1, k2, k3, ?_⟩
    rw [matchLoop, hc]
    simp only [↓reduceIte, hne]
    rw [g1, g2, k4]
    simp

theorem matchBrackets_balanced {x q : Bytes} {b : UInt8} (hx : Balanced (str "),") x) (hb : b = asc ')' ∨ b = asc ',') :
    matchBrackets (asc '(' :: x ++ b :: q) = .ok (x ++ (if b = asc ')' then [] else [b]), q) := by
  unfold matchBrackets
  obtain ⟨n', s', j, h1, h2, h3, h4⟩ := matchLoop_balanced hx (b :: q) (asc '(' :: x ++ b :: q) 1 ((asc '(' :: x ++ b :: q).length + 1) (asc ')') true false []
    (by simp) (by simp) (by omega) (by decide) (by decide)
  rw [h4]
  obtain ⟨m', rfl⟩ : ∃ m', n' = m' + 1 := ⟨n' - 1, by omega⟩
  have hc' : s'[j]? = some b := by
    have := List.getElem?_drop (xs := s') (i := j) (j := 0)
    rw [h3] at this; simpa using this.symm
  have hd' : s'.drop (j + 1) = q := by
    rw [getElem?_drop hc'] at h3
    simpa using h3
  rw [matchLoop, hc', hd']
  rcases hb with rfl | rfl <;> simp +decide

theorem attributesLoop_balanced (n : Nat) : ∀ (a : Bytes) (as : List Bytes) (q : Bytes) (acc : List Bytes), as.length < n →
    (∀ x ∈ a :: as, x ≠ [] ∧ Balanced (str "),") x) →
    attributesLoop n (asc '(' :: [asc ','].intercalate (a :: as) ++ asc ')' :: q) acc =
      .ok (acc ++ ((a :: as).map trim).filter (fun x => !x.isEmpty), q) := by
  induction n with
  | zero => intro a as q acc h; omega
  | succ n ih =>
    intro a as q acc hn ha
    have hlast : ∀ x : Bytes, x ≠ [] → Balanced (str "),") x → ∃ c, x.getLast? = some c ∧ c ≠ asc ',' := by
      intro x hx hb
      cases hg : x.getLast? with
      | none => exact absurd (List.getLast?_eq_none_iff.1 hg) hx
      | some c =>
        refine ⟨c, rfl, ?_⟩
        rintro rfl
        exact balanced_last hb (by decide) hg
    obtain ⟨ha0, hab⟩ := ha a (by simp)
    cases as with
    | nil =>
      have hm := matchBrackets_balanced (q := q) hab (.inl rfl)
      simp only [↓reduceIte, List.append_nil] at hm
      rw [attributesLoop]
      simp only [List.intercalate, List.intersperse_singleton, List.flatten_cons, List.flatten_nil, List.append_nil]
      rw [hm]
      obtain ⟨c, hc, hcc⟩ := hlast a ha0 hab
      show (match a.getLast? with | none => _ | some c => _) = _
      rw [hc]
      simp only [ne_eq, hcc, not_false_eq_true, ↓reduceIte]
      cases ht : trim a <;> simp [ht]
    | cons b as =>
      have hm := matchBrackets_balanced (q := [asc ','].intercalate (b :: as) ++ asc ')' :: q) hab (.inr rfl)
      have hne : asc ',' ≠ asc ')' := by decide
      simp only [hne, ↓reduceIte] at hm
      have e : asc '(' :: [asc ','].intercalate (a :: b :: as) ++ asc ')' :: q =
          asc '(' :: a ++ asc ',' :: ([asc ','].intercalate (b :: as) ++ asc ')' :: q) := by
        simp [List.intercalate]
      rw [attributesLoop, e, hm]
      show (match (a ++ [asc ',']).getLast? with | none => _ | some c => _) = _
      simp only [List.getLast?_append, List.getLast?_singleton, Option.some_or, ne_eq, not_true_eq_false, ↓reduceIte, List.dropLast_concat]
      have := ih b as q (if (trim a).isEmpty = true then acc else acc ++ [trim a]) (by simp at hn; omega) (fun x hx => ha x (by simp at hx ⊢; exact .inr hx))
      rw [List.cons_append] at this
      rw [this]
      cases ht : trim a <;> simp [ht]

theorem parseAttributes_balanced {as : List Bytes} {q : Bytes} (h0 : as ≠ []) (ha : ∀ x ∈ as, x ≠ [] ∧ Balanced (str "),") x) :
    parseAttributes (asc '(' :: [asc ','].intercalate as ++ asc ')' :: q) = .ok ((as.map trim).filter (fun x => !x.isEmpty), trim q) := by
  obtain ⟨a, as, rfl⟩ := List.exists_cons_of_ne_nil h0
  unfold parseAttributes
  rw [if_neg (by simp), attributesLoop_balanced _ a as q [] ?_ ha]
  · simp [Except.map]
  · have : ∀ l : List Bytes, ∀ a, l.length ≤ ([asc ','].intercalate (a :: l)).length := by
      intro l
      induction l with
      | nil => simp
      | cons b l ih => intro a; have := ih b; simp [List.intercalate] at this ⊢; omega
    have := this as a
    simp at this ⊢; omega

/-- No attribute is empty in a text in which no parenthesis or comma is followed by a parenthesis or the end. -/
theorem attributesLoop_safe (n : Nat) : ∀ q acc, q ≠ [] → q.length + 1 < n → q.head? ≠ some (asc ')') → ¬ str ",)" <:+: q →
    q.getLast? ≠ some (asc ',') → ∃ r, attributesLoop n (asc '(' :: q) acc = .ok r := by
  induction n with
  | zero => intro q as _ h; omega
  | succ n ih =>
    intro q acc hq hn h1 h2 h3
    obtain ⟨r, g1, g2⟩ := matchBrackets_spec (s := asc '(' :: q) (by simp)
    rw [attributesLoop, g1]
    simp only [Except.bind]
    split
    · rename_i hr
      rw [List.getLast?_eq_none_iff] at hr
      rcases g2 with ⟨mid, b, g3, ⟨rfl, g4, _⟩ | ⟨_, _, g4⟩⟩ | ⟨g3, _⟩
      · rw [hr] at g4; simp at g4; subst g4; simp at g3; rw [g3] at h1; simp at h1
      · rw [hr] at g4; simp at g4
      · rw [hr] at g3; simp at g3; exact absurd g3 hq
    · rename_i c hc
      split
      · exact ⟨_, rfl⟩
      · rename_i hcc
        simp only [ne_eq, Decidable.not_not] at hcc
        subst hcc
        rcases g2 with ⟨mid, b, g3, ⟨_, _, g5⟩ | ⟨_, rfl, _⟩⟩ | ⟨g3, _⟩
        · exact absurd hc (g5 rfl)
        · simp at g3
          refine ih _ _ ?_ ?_ ?_ ?_ ?_
          · intro h; apply h3; rw [g3, h]; simp
          · have := congrArg List.length g3; simp at this; omega
          · intro h
            cases hr : r.2 with
            | nil => rw [hr] at h; simp at h
            | cons d l =>
              rw [hr] at h g3; simp at h; subst h
              exact h2 ⟨mid, l, by rw [g3]; simp [str, asc]⟩
          · intro h; apply h2; rw [g3]
            exact h.trans ⟨mid ++ [asc ','], [], by simp⟩
          · intro h; apply h3; rw [g3, List.getLast?_append, List.getLast?_cons]; simp [h]
        · simp at g3; rw [g3] at hc; exact absurd hc h3

theorem parseAttributes_safe {q : Bytes} (hq : q ≠ []) (h1 : q.head? ≠ some (asc ')')) (h2 : ¬ str ",)" <:+: q)
    (h3 : q.getLast? ≠ some (asc ',')) : ∃ r, parseAttributes (asc '(' :: q) = .ok r := by
  unfold parseAttributes
  rw [if_neg (by simp)]
  obtain ⟨r, hr⟩ := attributesLoop_safe ((asc '(' :: q).length + 1) q [] hq (by simp) h1 h2 h3
  rw [hr]; exact ⟨_, rfl⟩

end Verif.Signature
