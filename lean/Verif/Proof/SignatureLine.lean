import Verif.Proof.SignatureScan

/-! # The parts of a signature -/

namespace Verif.SignatureLine
open Verif Verif.Text Verif.Signature Verif.Spec Verif.Spec.SignatureLine

theorem trimmed_eq {l s : Bytes} : Trimmed l s ↔ s = trim l := ⟨fun h => (trim_unique h).symm, fun h => h ▸ trim_spec _⟩

/-! ## Without backticks -/

theorem stripped_iff {s u : Bytes} : Stripped s u ↔ u = stripBackticks s := by
  constructor
  · intro h
    cases h with
    | bare h => exact (strip_plain h).symm
    | stray h =>
      unfold stripBackticks
      split
      · rfl
      · simp [stray_retrieve h]
    | @marked p t s u h hl ht =>
      obtain ⟨p', hp⟩ := marked_cons h
      unfold stripBackticks
      rw [if_neg]
      · have := (marked_retrieve h).2.2
        simp only [this]
        obtain ⟨n, _, _, h0, _⟩ := h
        rw [if_neg (by simpa using h0)]
        exact trimmed_eq.mp ht
      · rw [hl, hp]; simp
  · rintro rfl
    by_cases hb : s.head? ≠ some (asc '`') ∨ s.getLast? ≠ some (asc '`')
    · rw [strip_plain hb]; exact .bare hb
    · cases s with
      | nil => exact absurd (.inl (by simp)) hb
      | cons c s =>
        have hc : c = asc '`' := Classical.byContradiction fun h => hb (.inl (by simpa using h))
        have hl : (c :: s).getLast? = some (asc '`') := Classical.byContradiction fun h => hb (.inr h)
        subst hc
        rcases mark_cases (asc '`') s with h | ⟨p, t, r, hp, h⟩
        · have : stripBackticks (asc '`' :: s) = asc '`' :: s := by
            unfold stripBackticks
            rw [if_neg hb]
            simp [stray_retrieve h]
          rw [this]; exact .stray h
        · have : stripBackticks (asc '`' :: s) = trim t := by
            unfold stripBackticks
            rw [if_neg hb, hp]
            have h1 := (marked_retrieve h).2.2
            obtain ⟨n, _, _, h0, _⟩ := h
            simp only [h1]
            rw [if_neg (by simpa using h0)]
          rw [this, hp]
          exact .marked h (by rw [← hp]; exact hl) (trim_spec _)

/-! ## Text up to a place where it ends -/

/-- There is one reading. -/
theorem upTo_one {marks : Bytes} {E : Bytes → Prop} {s v r : Bytes} (h : UpTo marks E s v r) :
    ∀ {v' r'}, UpTo marks E s v' r' → v' = v ∧ r' = r := by
  induction h with
  | over =>
    intro v' r' h'
    generalize e : ([] : Bytes) = l at h'
    cases h' with
    | over => exact ⟨rfl, rfl⟩
    | marked _ h => obtain ⟨p', rfl⟩ := marked_cons h; cases e
    | ends => cases e
    | plain => cases e
    | stray => cases e
  | @ends c s h1 h2 =>
    intro v' r' h'
    generalize e : c :: s = l at h'
    cases h' with
    | over => cases e
    | ends => injection e with e1 e2; subst e1 e2; exact ⟨rfl, rfl⟩
    | plain _ h => rw [← e] at h; exact absurd h2 h
    | stray h => injection e with e1 e2; subst e1; exact absurd h h1
    | marked h hm => obtain ⟨p', rfl⟩ := marked_cons hm; injection e with e1 e2; subst e1; exact absurd h h1
  | @plain c s v r h1 h2 _ ih =>
    intro v' r' h'
    generalize e : c :: s = l at h'
    cases h' with
    | over => cases e
    | ends _ h => rw [← e] at h; exact absurd h h2
    | plain _ _ h => injection e with e1 e2; subst e1 e2; obtain ⟨rfl, rfl⟩ := ih h; exact ⟨rfl, rfl⟩
    | stray h => injection e with e1 e2; subst e1; exact absurd h h1
    | marked h hm => obtain ⟨p', rfl⟩ := marked_cons hm; injection e with e1 e2; subst e1; exact absurd h h1
  | @stray c s v r h1 h2 _ ih =>
    intro v' r' h'
    generalize e : c :: s = l at h'
    cases h' with
    | over => cases e
    | ends h => injection e with e1 e2; subst e1; exact absurd h1 h
    | plain h => injection e with e1 e2; subst e1; exact absurd h1 h
    | stray _ _ h => injection e with e1 e2; subst e1 e2; obtain ⟨rfl, rfl⟩ := ih h; exact ⟨rfl, rfl⟩
    | marked _ hm =>
      have e1 := (marked_retrieve hm).1
      obtain ⟨p', rfl⟩ := marked_cons hm
      have e' := e
      injection e with e2 e3
      subst e2
      rw [← e', stray_retrieve h2] at e1
      cases e1
  | @marked c p t s v r h1 h2 _ ih =>
    intro v' r' h'
    generalize e : p ++ s = l at h'
    obtain ⟨p', hp⟩ := marked_cons h2
    have e0 : l.head? = some c := by rw [← e, hp]; rfl
    cases h' with
    | over => cases e0
    | ends h => simp at e0; subst e0; exact absurd h1 h
    | plain h => simp at e0; subst e0; exact absurd h1 h
    | stray _ h =>
      simp at e0; subst e0
      have e1 := (marked_retrieve h2).1
      rw [e, stray_retrieve h, hp] at e1
      cases e1
    | marked _ h h' =>
      obtain ⟨p'', hp'⟩ := marked_cons h
      rw [hp'] at e0
      simp at e0; subst e0
      have e1 := (marked_retrieve h2).1
      rw [e, (marked_retrieve h).1] at e1
      injection e1 with e1 e2
      subst e1 e2
      obtain ⟨rfl, rfl⟩ := ih h'
      exact ⟨rfl, rfl⟩

/-- What is read and what is left is the text. -/
theorem upTo_text {marks : Bytes} {E : Bytes → Prop} {s v r : Bytes} (h : UpTo marks E s v r) : s = v ++ r := by
  induction h with
  | over => rfl
  | ends => rfl
  | plain _ _ _ ih => rw [ih]; simp
  | stray _ _ _ ih => rw [ih]; simp
  | marked _ _ _ ih => rw [ih]; simp

/-- What is left begins with an end. -/
theorem upTo_ends {marks : Bytes} {E : Bytes → Prop} {s v r : Bytes} (h : UpTo marks E s v r) : r = [] ∨ E r := by
  induction h with
  | over => exact .inl rfl
  | ends _ h => exact .inr h
  | plain _ _ _ ih => exact ih
  | stray _ _ _ ih => exact ih
  | marked _ _ _ ih => exact ih

/-- A stray mark in the middle of a text. -/
theorem stray_at {s : Bytes} {i : Nat} {c : UInt8} (hc : s[i]? = some c) (h : (retrieveEscaped s i).1 = []) : Stray c (s.drop (i + 1)) := by
  have hi : i < s.length := (List.getElem?_eq_some_iff.1 hc).1
  rcases mark_cases c (s.drop (i + 1)) with h' | ⟨p, t, r, hp, hm⟩
  · exact h'
  · rw [(retrieve_drop s i (by omega)).1, getElem?_drop hc, hp, (marked_retrieve hm).1] at h
    obtain ⟨p', rfl⟩ := marked_cons hm
    cases h

/-- Text in marks in the middle of a text. -/
theorem marked_at {s : Bytes} {i : Nat} {c : UInt8} (hc : s[i]? = some c) (h : (retrieveEscaped s i).1 ≠ []) :
    ∃ t, Marked c (retrieveEscaped s i).1 t (retrieveEscaped s i).2 ∧ s.drop i = (retrieveEscaped s i).1 ++ (retrieveEscaped s i).2 := by
  have hi : i < s.length := (List.getElem?_eq_some_iff.1 hc).1
  obtain ⟨h1, h2⟩ := retrieve_drop s i (by omega)
  rcases mark_cases c (s.drop (i + 1)) with h' | ⟨p, t, r, hp, hm⟩
  · rw [h1, getElem?_drop hc, stray_retrieve h'] at h
    exact absurd rfl h
  · rw [h2 h, h1, getElem?_drop hc, hp, (marked_retrieve hm).1]
    exact ⟨t, hm, rfl⟩

/-! ## The identifier -/

theorem stops_iff {t : Traits} {s : Bytes} {i : Nat} {c : UInt8} (h : s[i]? = some c) :
    ((t.values && c == t.valuesDelimiter) || (t.attributes && c == asc '(') || contentAt t s i) = true ↔ Stops t (c :: s.drop (i + 1)) := by
  unfold Stops
  simp only [Bool.or_eq_true, Bool.and_eq_true, beq_iff_eq, contentAt, take_eq_iff_prefix, List.head?_cons, Option.some.injEq, or_assoc,
    getElem?_drop h]

theorem identifier_upTo (t : Traits) (s : Bytes) (i : Nat) (id : Bytes) (hi : i ≤ s.length) :
    ∃ v, (identifierLoop t s i id).2.2 = id ++ v ∧
      UpTo (str "*_`") (Stops t) (s.drop i) v (rest (identifierLoop t s i id).1 (identifierLoop t s i id).2.1) := by
  fun_induction identifierLoop t s i id with
  | case1 s i id h =>
    have : i = s.length := by rw [List.getElem?_eq_none_iff] at h; omega
    refine ⟨[], by simp, ?_⟩
    simp [rest, this]; exact .over
  | case2 s i id c h hm he ih =>
    have := (List.getElem?_eq_some_iff.1 h).1
    obtain ⟨v, h1, h2⟩ := ih (by omega)
    rw [getElem?_drop h]
    exact ⟨c :: v, by rw [h1]; simp, .stray hm (stray_at h he) h2⟩
  | case3 s i id c h hm he ih =>
    obtain ⟨v, h1, h2⟩ := ih (by simp)
    obtain ⟨x, hx, hd⟩ := marked_at h he
    rw [hd]
    exact ⟨_ ++ v, by rw [h1]; simp, .marked hm hx (by simpa using h2)⟩
  | case4 s i id c h hm hstop =>
    have hd := getElem?_drop h
    have hr : rest (s.drop i) 0 = s.drop i := by rw [hd]; simp [rest]
    simp only [hr]
    refine ⟨[], by simp, ?_⟩
    rw [hd]
    exact .ends hm ((stops_iff h).mp hstop)
  | case5 s i id c h hm hstop ih =>
    have := (List.getElem?_eq_some_iff.1 h).1
    obtain ⟨v, h1, h2⟩ := ih (by omega)
    rw [getElem?_drop h]
    exact ⟨c :: v, by rw [h1]; simp, .plain hm (fun h' => hstop ((stops_iff h).mpr h')) h2⟩

theorem parseIdentifier_iff {t : Traits} {s id r : Bytes} : parseIdentifier t s = (id, r) ↔
    ∃ l i q, Trimmed s l ∧ UpTo (str "*_`") (Stops t) l i q ∧ Trimmed i id ∧ Trimmed q r := by
  obtain ⟨v, h1, h2⟩ := identifier_upTo t (trim s) 0 [] (by simp)
  have hp : parseIdentifier t s = (trim v, trim (rest (identifierLoop t (trim s) 0 []).1 (identifierLoop t (trim s) 0 []).2.1)) := by
    unfold parseIdentifier
    simp only [h1, List.nil_append]
    rfl
  rw [hp]
  simp only [List.drop_zero] at h2
  constructor
  · intro h
    injection h with e1 e2
    subst e1 e2
    exact ⟨_, _, _, trim_spec _, h2, trim_spec _, trim_spec _⟩
  · rintro ⟨l, i, q, hl, hu, hi, hq⟩
    have := trimmed_eq.mp hl; subst this
    obtain ⟨rfl, rfl⟩ := upTo_one h2 hu
    rw [trimmed_eq.mp hi, trimmed_eq.mp hq]

/-! ## The values -/

theorem stopsValues_iff {t : Traits} {s : Bytes} {i : Nat} {c : UInt8} (h : s[i]? = some c) :
    ((t.attributes && c == asc '(') || contentAt t s i) = true ↔ Stops { t with values := false } (c :: s.drop (i + 1)) := by
  unfold Stops
  simp only [Bool.or_eq_true, Bool.and_eq_true, beq_iff_eq, contentAt, take_eq_iff_prefix, List.head?_cons, Option.some.injEq,
    getElem?_drop h, Bool.false_eq_true, false_and, false_or]

/-- A list of values of which some text has been read. -/
def ListFrom (t : Traits) (pre s : Bytes) (vs : List Bytes) (r : Bytes) : Prop :=
  ∃ v q, UpTo (str "`") (ValueEnds t) s v q ∧
    ((∃ s' s'' vs', q = asc ',' :: s' ∧ Trimmed s' s'' ∧ vs = stripBackticks (trim (pre ++ v)) :: vs' ∧ ValueList t s'' vs' r) ∨
      (q.head? ≠ some (asc ',') ∧ r = q ∧ vs = if (trim (pre ++ v)).isEmpty then [] else [trim (pre ++ v)]))

theorem listFrom_nil {t : Traits} {s : Bytes} {vs : List Bytes} {r : Bytes} : ListFrom t [] s vs r ↔ ValueList t s vs r := by
  constructor
  · rintro ⟨v, q, hu, (⟨s', s'', vs', rfl, h1, rfl, h2⟩ | ⟨h1, rfl, rfl⟩)⟩
    · exact .more hu (trim_spec _) (stripped_iff.mpr rfl) h1 h2
    · simp only [List.nil_append]
      split
      · rename_i h
        rw [List.isEmpty_iff] at h
        exact .none hu h1 (h ▸ trim_spec _)
      · rename_i h
        exact .last hu h1 (trim_spec _) (by simpa using h)
  · intro h
    cases h with
    | more hu h1 h2 h3 h4 =>
      have := trimmed_eq.mp h1; subst this
      rw [stripped_iff.mp h2]
      exact ⟨_, _, hu, .inl ⟨_, _, _, rfl, h3, rfl, h4⟩⟩
    | last hu h1 h2 h3 =>
      have := trimmed_eq.mp h2; subst this
      exact ⟨_, _, hu, .inr ⟨h1, rfl, by rw [if_neg (by simpa using h3)]; rfl⟩⟩
    | none hu h1 h2 =>
      have := trimmed_eq.mp h2
      exact ⟨_, _, hu, .inr ⟨h1, rfl, by rw [if_pos (by simp [← this])]⟩⟩

theorem listFrom_step {t : Traits} {pre a s s₀ : Bytes} {vs : List Bytes} {r : Bytes} (h : ListFrom t (pre ++ a) s vs r)
    (hs : ∀ v q, UpTo (str "`") (ValueEnds t) s v q → UpTo (str "`") (ValueEnds t) s₀ (a ++ v) q) : ListFrom t pre s₀ vs r := by
  obtain ⟨v, q, hu, h⟩ := h
  refine ⟨a ++ v, q, hs _ _ hu, ?_⟩
  rw [← List.append_assoc]; exact h

theorem mem_tick {c : UInt8} : c ∈ str "`" ↔ c = asc '`' := by simp [str]

theorem values_list (t : Traits) (s : Bytes) (i : Nat) (v : Bytes) (vs : List Bytes) (hi : i ≤ s.length) :
    ∃ us, vs ++ us = (if (trim (valuesLoop t s i v vs).2.2.1).isEmpty then (valuesLoop t s i v vs).2.2.2
        else (valuesLoop t s i v vs).2.2.2 ++ [trim (valuesLoop t s i v vs).2.2.1]) ∧
      ListFrom t v (s.drop i) us (rest (valuesLoop t s i v vs).1 (valuesLoop t s i v vs).2.1) := by
  fun_induction valuesLoop t s i v vs with
  | case1 s i v vs h =>
    have : i = s.length := by rw [List.getElem?_eq_none_iff] at h; omega
    refine ⟨if (trim v).isEmpty then [] else [trim v], by split <;> simp, [], [], ?_, .inr ⟨by simp, ?_, by simp⟩⟩
    · rw [this, List.drop_length]; exact .over
    · simp [rest, this]
  | case2 s i v vs he h ih =>
    have := (List.getElem?_eq_some_iff.1 h).1
    obtain ⟨us, h1, h2⟩ := ih (by omega)
    refine ⟨us, h1, listFrom_step h2 ?_⟩
    intro x q hu
    rw [getElem?_drop h]
    exact .stray (mem_tick.mpr rfl) (stray_at h he) hu
  | case3 s i v vs he h ih =>
    obtain ⟨us, h1, h2⟩ := ih (by simp)
    refine ⟨us, h1, listFrom_step h2 ?_⟩
    intro x q hu
    obtain ⟨y, hy, hd⟩ := marked_at h he
    rw [hd]
    exact .marked (mem_tick.mpr rfl) hy (by simpa using hu)
  | case4 s i v vs h hc ih =>
    obtain ⟨us, h1, h2⟩ := ih (by simp)
    simp only [List.drop_zero] at h2
    refine ⟨stripBackticks (trim v) :: us, by rw [← h1]; simp, [], _, ?_, .inl ⟨_, _, us, rfl, trim_spec _, by simp, listFrom_nil.mp h2⟩⟩
    rw [getElem?_drop h]
    exact .ends (by rw [mem_tick]; decide) (.inl rfl)
  | case5 s i v vs c h hm hcom hstop =>
    have hd := getElem?_drop h
    have hr : rest (s.drop i) 0 = s.drop i := by rw [hd]; simp [rest]
    simp only [hr]
    refine ⟨if (trim v).isEmpty then [] else [trim v], by split <;> simp, [], _, ?_, .inr ⟨?_, rfl, by simp⟩⟩
    · rw [hd]
      exact .ends (by rw [mem_tick]; exact hm) (.inr ((stopsValues_iff h).mp hstop))
    · rw [hd]; simpa using hcom
  | case6 s i v vs c h hm hcom hstop ih =>
    have := (List.getElem?_eq_some_iff.1 h).1
    obtain ⟨us, h1, h2⟩ := ih (by omega)
    refine ⟨us, h1, listFrom_step h2 ?_⟩
    intro x q hu
    rw [getElem?_drop h]
    refine .plain (by rw [mem_tick]; exact hm) ?_ hu
    rintro (h' | h')
    · exact hcom (by simpa using h')
    · exact hstop ((stopsValues_iff h).mpr h')

theorem valueList_one {t : Traits} {s : Bytes} {vs : List Bytes} {r : Bytes} (h : ValueList t s vs r) :
    ∀ {vs' r'}, ValueList t s vs' r' → vs' = vs ∧ r' = r := by
  induction h with
  | @more s v v' u s' s'' vs r hu h1 h2 h3 _ ih =>
    intro vs' r' h'
    cases h' with
    | more gu g1 g2 g3 g4 =>
      obtain ⟨rfl, e⟩ := upTo_one hu gu
      injection e with _ e
      subst e
      rw [trimmed_eq] at h1 g1 h3 g3
      subst h1 g1 h3 g3
      rw [stripped_iff] at h2 g2
      obtain ⟨rfl, rfl⟩ := ih g4
      exact ⟨by rw [h2, g2], rfl⟩
    | last gu g1 => obtain ⟨_, rfl⟩ := upTo_one hu gu; exact absurd rfl g1
    | none gu g1 => obtain ⟨_, rfl⟩ := upTo_one hu gu; exact absurd rfl g1
  | last hu h1 h2 h3 =>
    intro vs' r' h'
    cases h' with
    | more gu => obtain ⟨_, rfl⟩ := upTo_one hu gu; exact absurd rfl h1
    | last gu g1 g2 =>
      obtain ⟨rfl, rfl⟩ := upTo_one hu gu
      rw [trimmed_eq] at h2 g2
      exact ⟨by rw [h2, g2], rfl⟩
    | none gu g1 g2 =>
      obtain ⟨rfl, rfl⟩ := upTo_one hu gu
      rw [trimmed_eq] at h2 g2
      exact absurd (h2.trans g2.symm) h3
  | none hu h1 h2 =>
    intro vs' r' h'
    cases h' with
    | more gu => obtain ⟨_, rfl⟩ := upTo_one hu gu; exact absurd rfl h1
    | last gu g1 g2 g3 =>
      obtain ⟨rfl, rfl⟩ := upTo_one hu gu
      rw [trimmed_eq] at h2 g2
      exact absurd (g2.trans h2.symm) g3
    | none gu => exact ⟨rfl, (upTo_one hu gu).2⟩

theorem upTo_solid {marks : Bytes} {E : Bytes → Prop} {s v r : Bytes} (h : UpTo marks E s v r) (hs : Solid s) : Solid r := by
  rw [upTo_text h] at hs; exact hs.suffix

theorem trim_solid {s : Bytes} (h : Solid s) : Solid (trim s) := by
  obtain ⟨a, ha, _⟩ := h.trim_eq
  rw [ha] at h; exact h.suffix

/-- What is left of a text that ends with something is at the end of the text. -/
theorem valueList_suffix {t : Traits} {s : Bytes} {vs : List Bytes} {r : Bytes} (h : ValueList t s vs r) : Solid s → r <:+ s ∧ Solid r := by
  induction h with
  | @more s v v' u s' s'' vs r hu _ _ h3 _ ih =>
    intro hs
    have e := upTo_text hu
    have hs' : Solid s' := by rw [e, ← List.singleton_append, ← List.append_assoc] at hs; exact hs.suffix
    obtain ⟨a, ha, _⟩ := hs'.trim_eq
    rw [trimmed_eq] at h3
    subst h3
    obtain ⟨h1, h2⟩ := ih (trim_solid hs')
    refine ⟨h1.trans ?_, h2⟩
    rw [e]
    exact ⟨v ++ asc ',' :: a, by conv => rhs; rw [ha]
                                 simp⟩
  | last hu => intro hs; exact ⟨⟨_, (upTo_text hu).symm⟩, upTo_solid hu hs⟩
  | none hu => intro hs; exact ⟨⟨_, (upTo_text hu).symm⟩, upTo_solid hu hs⟩

/-- The text of the values, the values and what is behind them. -/
theorem parseValues_iff {t : Traits} {s v q : Bytes} {vs : List Bytes} : parseValues t s = (v, vs, q) ↔
    ∃ b' x x' r, Trimmed (s.drop 1) b' ∧ ValueList t b' vs r ∧ Trimmed r q ∧ b' = x ++ q ∧ Trimmed x x' ∧ Stripped x' v := by
  obtain ⟨us, h1, h2⟩ := values_list t (trim (s.drop 1)) 0 [] [] (by simp)
  simp only [List.drop_zero, List.nil_append, listFrom_nil] at h1 h2
  generalize hr : rest (valuesLoop t (trim (s.drop 1)) 0 [] []).1 (valuesLoop t (trim (s.drop 1)) 0 [] []).2.1 = r at h2
  have hsol : Solid (trim (s.drop 1)) := bare_solid (bare_trim _)
  obtain ⟨⟨y, hy⟩, hsr⟩ := valueList_suffix h2 hsol
  obtain ⟨a, ha, _⟩ := hsr.trim_eq
  have hx : trim (s.drop 1) = (y ++ a) ++ trim r := by rw [List.append_assoc, ← ha, hy]
  have hp : parseValues t s = (stripBackticks (trim (y ++ a)), us, trim r) := by
    unfold parseValues
    simp only [← h1]
    rw [show (if (valuesLoop t (trim (s.drop 1)) 0 [] []).2.1 = (valuesLoop t (trim (s.drop 1)) 0 [] []).1.length then []
      else (valuesLoop t (trim (s.drop 1)) 0 [] []).1) = r from hr]
    rw [hx]
    have : (y ++ a ++ trim r).length - (trim r).length = (y ++ a).length := by rw [List.length_append]; omega
    rw [this, List.take_left]
  rw [hp]
  constructor
  · intro h
    simp only [Prod.mk.injEq] at h
    obtain ⟨rfl, rfl, rfl⟩ := h
    exact ⟨_, y ++ a, _, r, trim_spec _, h2, trim_spec _, hx, trim_spec _, stripped_iff.mpr rfl⟩
  · rintro ⟨b', x, x', r', hb, hl, hq, e, hx', hs⟩
    rw [trimmed_eq] at hb
    subst hb
    obtain ⟨rfl, rfl⟩ := valueList_one h2 hl
    rw [trimmed_eq] at hq
    subst hq
    rw [trimmed_eq] at hx'
    subst hx'
    rw [stripped_iff] at hs
    subst hs
    have := List.append_cancel_right (hx.symm.trans e)
    rw [this]

/-! ## The attributes -/

theorem attr_closers : Closers (str "),") := by
  intro c hc
  have : c = asc ')' ∨ c = asc ',' := by simpa [str] using hc
  rcases this with rfl | rfl <;> decide

/-- What is read before a stop does not end with one. -/
theorem scan_last {stops s m : Bytes} {c : UInt8} {r : Bytes} {t : Option Bytes} (h : Scan stops s m (some (c, r)) t) (hcl : Closers stops)
    (hm : asc ',' ∈ stops) : m.getLast? ≠ some (asc ',') := by
  generalize e : some (c, r) = x at h
  induction h with
  | stop => simp
  | over => simp
  | @plain stops c s m r t _ _ _ h4 _ ih =>
    cases m with
    | nil => simp; rintro rfl; exact h4 hm
    | cons a m => rw [List.getLast?_cons_cons]; exact ih hcl hm e
  | @stray stops s m r t _ _ ih =>
    cases m with
    | nil => simp; decide
    | cons a m => rw [List.getLast?_cons_cons]; exact ih hcl hm e
  | @marked stops p i s m r t hmk _ ih =>
    cases m with
    | nil =>
      obtain ⟨n, hn, rfl, _⟩ := hmk
      obtain ⟨k, rfl⟩ : ∃ k, n = k + 1 := ⟨n - 1, by omega⟩
      rw [List.append_nil, List.replicate_succ', ← List.append_assoc, List.getLast?_concat]
      simp; decide
    | cons a m => rw [getLast?_append_ne_nil _ (by simp)]; exact ih hcl hm e
  | @nested stops o c s m' s' t' m r t hp _ _ _ ih =>
    cases m with
    | nil =>
      rw [getLast?_append_ne_nil _ (by simp)]
      rcases hp with ⟨_, rfl⟩ | ⟨_, rfl⟩ <;> simp <;> decide
    | cons a m =>
      rw [getLast?_append_ne_nil _ (by simp), List.getLast?_cons_cons]
      exact ih hcl hm e
  | nestedOpen => cases e

/-- If an unclosed reading ends with a comma, nothing is behind it. -/
theorem scan_comma {stops s m : Bytes} {t : Option Bytes} (h : Scan stops s m none t) (hm : asc ',' ∈ stops)
    (hl : m.getLast? = some (asc ',')) : t = some [] := by
  generalize e : (none : Option (UInt8 × Bytes)) = x at h
  induction h with
  | stop => cases e
  | over => simp at hl
  | @plain stops c s m r t _ _ _ h4 _ ih =>
    cases m with
    | nil => simp at hl; subst hl; exact absurd hm h4
    | cons a m => rw [List.getLast?_cons_cons] at hl; exact ih hm hl e
  | @stray stops s m r t _ _ ih =>
    cases m with
    | nil => exact absurd hl (by simp; decide)
    | cons a m => rw [List.getLast?_cons_cons] at hl; exact ih hm hl e
  | @marked stops p i s m r t hmk _ ih =>
    cases m with
    | nil =>
      obtain ⟨n, hn, rfl, _⟩ := hmk
      obtain ⟨k, rfl⟩ : ∃ k, n = k + 1 := ⟨n - 1, by omega⟩
      rw [List.append_nil, List.replicate_succ', ← List.append_assoc, List.getLast?_concat] at hl
      exact absurd hl (by simp; decide)
    | cons a m => rw [getLast?_append_ne_nil _ (by simp)] at hl; rw [ih hm hl e]; rfl
  | @nested stops o c s m' s' t' m r t hp _ _ _ ih =>
    cases m with
    | nil =>
      rw [getLast?_append_ne_nil _ (by simp)] at hl
      rcases hp with ⟨_, rfl⟩ | ⟨_, rfl⟩ <;> exact absurd hl (by simp; decide)
    | cons a m =>
      rw [getLast?_append_ne_nil _ (by simp), List.getLast?_cons_cons] at hl
      rw [ih hm hl e]; rfl
  | nestedOpen => rfl

theorem stop_eq {c d : UInt8} {r s : Bytes} (h : some (c, r) = some (d, s)) : c = d := by
  injection h with h; injection h

theorem matchBrackets_scan {s m : Bytes} {r : Option (UInt8 × Bytes)} {t : Option Bytes} (h : Scan (str "),") s m r t) :
    matchBrackets (asc '(' :: s) = .ok (looped (asc ')') true false [] (asc '(' :: s) m r t) :=
  loop_scan h (asc ')') true rfl (.inl rfl) _ (asc '(' :: s) 1 false _ (by simp) (by simp) (by simp; omega)

/-- The attributes with one more. -/
theorem attribute_iff {m : Bytes} {a : List Bytes} : Attribute m a ↔ a = if (trim m).isEmpty then [] else [trim m] := by
  constructor
  · intro h
    cases h with
    | yes h1 h2 =>
      rw [trimmed_eq] at h1; subst h1
      rw [if_neg (by simpa using h2)]
    | blank h1 => rw [if_pos (by simp [← trimmed_eq.mp h1])]
  · rintro rfl
    split
    · rename_i h
      rw [List.isEmpty_iff] at h
      exact .blank (h ▸ trim_spec _)
    · rename_i h
      exact .yes (trim_spec _) (by simpa using h)

theorem attributesLoop_iff : ∀ (n : Nat) (s : Bytes) (acc as' : List Bytes) (r : Bytes), s.length + 1 < n →
    (attributesLoop n (asc '(' :: s) acc = .ok (as', r) ↔ ∃ as, AttributeList s as r ∧ as' = acc ++ as)
  | 0, s, acc, as', r, h => by omega
  | n + 1, s, acc, as', r, h => by
    obtain ⟨m, q, t, hs, _⟩ := scan_total s.length s (str "),") (Nat.le_refl _) attr_closers
    have one := fun {m' q' t'} (h' : Scan (str "),") s m' q' t') => scan_one hs attr_closers h'
    rw [attributesLoop, matchBrackets_scan hs]
    cases q with
    | none =>
      simp only [looped, Except.bind, List.nil_append, Bool.false_eq_true, if_false]
      cases hl : m.getLast? with
      | none =>
        have : m = [] := by simpa using hl
        subst this
        simp only [reduceCtorEq, false_iff, not_exists, not_and]
        intro as ha
        cases ha with
        | more h' => have := (one h').2.1; cases this
        | closed h' => have := (one h').2.1; cases this
        | unclosed h' h0 => exact absurd (one h').1 h0
      | some c =>
        have hm : m ≠ [] := by rintro rfl; cases hl
        simp only []
        by_cases hc : c = asc ','
        · subst hc
          have ht := scan_comma hs (by simp [str]) hl
          subst ht
          simp only [ne_eq, not_true_eq_false, if_false, Option.getD_some]
          constructor
          · intro h'
            exfalso
            obtain ⟨k, rfl⟩ : ∃ k, n = k + 1 := ⟨n - 1, by omega⟩
            rw [attributesLoop] at h'
            have : matchBrackets [asc '('] = .ok ([], [asc '(']) := by rfl
            rw [this] at h'
            cases h'
          · rintro ⟨as, ha, _⟩
            cases ha with
            | more h' => have := (one h').2.1; cases this
            | closed h' => have := (one h').2.1; cases this
            | unclosed h' _ h1 => rw [(one h').1, hl] at h1; exact absurd rfl h1
        · rw [if_pos hc]
          simp only [Except.ok.injEq, Prod.mk.injEq]
          constructor
          · rintro ⟨rfl, rfl⟩
            exact ⟨_, .unclosed hs hm (by rw [hl]; simpa using hc) (attribute_iff.mpr rfl), by split <;> simp⟩
          · rintro ⟨as, ha, rfl⟩
            cases ha with
            | more h' => have := (one h').2.1; cases this
            | closed h' => have := (one h').2.1; cases this
            | unclosed h' _ _ h2 =>
              obtain ⟨rfl, _, rfl⟩ := one h'
              rw [attribute_iff.mp h2]
              exact ⟨by split <;> simp, rfl⟩
    | some q =>
      obtain ⟨c, s'⟩ := q
      have hlt := scan_le hs _ rfl
      have hcs : c = asc ')' ∨ c = asc ',' := by simpa [str] using scan_stop hs
      simp only [looped, Except.bind, List.nil_append]
      rcases hcs with rfl | rfl
      · simp only [and_self, if_true, List.append_nil]
        cases hl : m.getLast? with
        | none =>
          have : m = [] := by simpa using hl
          subst this
          simp only [reduceCtorEq, false_iff, not_exists, not_and]
          intro as ha
          cases ha with
          | more h' => exact absurd (stop_eq (one h').2.1) (by decide)
          | closed h' h0 => exact absurd (one h').1 h0
          | unclosed h' => have := (one h').2.1; cases this
        | some c =>
          have hm : m ≠ [] := by rintro rfl; cases hl
          have hc : c ≠ asc ',' := by
            rintro rfl
            exact scan_last hs attr_closers (by simp [str]) hl
          simp only []
          rw [if_pos hc]
          simp only [Except.ok.injEq, Prod.mk.injEq]
          constructor
          · rintro ⟨rfl, rfl⟩
            exact ⟨_, .closed hs hm (attribute_iff.mpr rfl), by split <;> simp⟩
          · rintro ⟨as, ha, rfl⟩
            cases ha with
            | more h' => exact absurd (stop_eq (one h').2.1) (by decide)
            | closed h' _ h2 =>
              obtain ⟨rfl, e, _⟩ := one h'
              simp only [Option.some.injEq, Prod.mk.injEq, true_and] at e
              subst e
              rw [attribute_iff.mp h2]
              exact ⟨by split <;> simp, rfl⟩
            | unclosed h' => have := (one h').2.1; cases this
      · rw [if_neg (by simp; decide)]
        simp only [List.getLast?_concat, ne_eq, not_true_eq_false, if_false, List.dropLast_concat]
        rw [attributesLoop_iff n s' _ as' r (by simp at hlt; omega)]
        constructor
        · rintro ⟨as, ha, rfl⟩
          refine ⟨_, .more hs (attribute_iff.mpr rfl) ha, ?_⟩
          split <;> simp
        · rintro ⟨as, ha, rfl⟩
          cases ha with
          | more h' h2 h3 =>
            obtain ⟨rfl, e, _⟩ := one h'
            simp only [Option.some.injEq, Prod.mk.injEq, true_and] at e
            subst e
            refine ⟨_, h3, ?_⟩
            rw [attribute_iff.mp h2]
            split <;> simp
          | closed h' => exact absurd (stop_eq (one h').2.1) (by decide)
          | unclosed h' => have := (one h').2.1; cases this

/-- The attributes, and what is behind them. -/
theorem parseAttributes_iff {s : Bytes} {as : List Bytes} {r : Bytes} : parseAttributes (asc '(' :: s) = .ok (as, r) ↔
    ∃ q, AttributeList s as q ∧ Trimmed q r := by
  have h0 : parseAttributes (asc '(' :: s) = (attributesLoop ((asc '(' :: s).length + 1) (asc '(' :: s) []).map fun r => (r.1, trim r.2) := by
    unfold parseAttributes
    rw [if_neg (by simp)]
  rw [h0]
  cases hr : attributesLoop ((asc '(' :: s).length + 1) (asc '(' :: s) [] with
  | error e =>
    simp only [Except.map, reduceCtorEq, false_iff, not_exists, not_and]
    intro q ha
    have := (attributesLoop_iff ((asc '(' :: s).length + 1) s [] as q (by rw [List.length_cons]; omega)).mpr ⟨as, ha, rfl⟩
    rw [hr] at this
    cases this
  | ok x =>
    obtain ⟨as', q⟩ := x
    obtain ⟨us, ha, rfl⟩ := (attributesLoop_iff ((asc '(' :: s).length + 1) s [] as' q (by rw [List.length_cons]; omega)).mp hr
    simp only [Except.map, List.nil_append, Except.ok.injEq, Prod.mk.injEq]
    constructor
    · rintro ⟨rfl, rfl⟩
      exact ⟨q, ha, trim_spec _⟩
    · rintro ⟨q', ha', hq⟩
      have := (attributesLoop_iff ((asc '(' :: s).length + 1) s [] as q' (by rw [List.length_cons]; omega)).mpr ⟨as, ha', rfl⟩
      rw [hr] at this
      simp only [List.nil_append, Except.ok.injEq, Prod.mk.injEq] at this
      obtain ⟨rfl, rfl⟩ := this
      exact ⟨rfl, (trimmed_eq.mp hq).symm⟩

end Verif.SignatureLine
