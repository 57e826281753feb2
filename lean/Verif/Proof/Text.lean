import Verif.Model.Text
import Verif.Spec.Text
import Verif.Proof.Util
/-! Proofs about strings. -/
namespace Verif.Text
open Verif Verif.Spec

theorem isSpace_iff {c : UInt8} : isSpace c = true ↔ White c := by
  exact forallU8 (P := fun c => isSpace c = true ↔ White c) (by unfold White; decide +kernel) c

theorem dropWhile_append_all {α} {p : α → Bool} {a l : List α} (h : ∀ c ∈ a, p c = true) : (a ++ l).dropWhile p = l.dropWhile p := by
  induction a with
  | nil => rfl
  | cons c a ih => simp [List.dropWhile_cons, h c (by simp), ih (fun d hd => h d (by simp [hd]))]

theorem dropWhile_head {α} {p : α → Bool} {l : List α} (h : ∀ c, l.head? = some c → p c = false) : l.dropWhile p = l := by
  cases l with
  | nil => rfl
  | cons c l => simp [List.dropWhile_cons, h c rfl]

theorem head_dropWhile {α} {p : α → Bool} {l : List α} {c : α} (h : (l.dropWhile p).head? = some c) : p c = false := by
  induction l with
  | nil => simp at h
  | cons d l ih =>
    rw [List.dropWhile_cons] at h
    split at h
    · exact ih h
    · rename_i hd; simp at h; subst h; simpa using hd

theorem blank_all {s : Bytes} : Blank s ↔ ∀ c ∈ s, isSpace c = true := by
  simp only [Blank, isSpace_iff]

theorem trimStart_spec (s : Bytes) : ∃ a, s = a ++ trimStart s ∧ Blank a :=
  ⟨s.takeWhile isSpace, (List.takeWhile_append_dropWhile).symm, fun _ hc => isSpace_iff.1 (mem_takeWhile_imp hc)⟩

theorem trimEnd_spec (s : Bytes) : ∃ b, s = trimEnd s ++ b ∧ Blank b := by
  refine ⟨(s.reverse.takeWhile isSpace).reverse, ?_, fun c hc => isSpace_iff.1 (mem_takeWhile_imp (List.mem_reverse.1 hc))⟩
  rw [trimEnd, ← List.reverse_append, List.takeWhile_append_dropWhile, List.reverse_reverse]

theorem trimEnd_last {s : Bytes} {c : UInt8} (h : (trimEnd s).getLast? = some c) : ¬ White c := by
  rw [trimEnd, List.getLast?_reverse] at h
  rw [← isSpace_iff, head_dropWhile h]; simp

theorem trimStart_head {s : Bytes} {c : UInt8} (h : (trimStart s).head? = some c) : ¬ White c := by
  rw [← isSpace_iff, head_dropWhile h]; simp

theorem getLast?_suffix {α} {a b : List α} {c : α} (h : b.getLast? = some c) : (a ++ b).getLast? = some c := by
  rw [List.getLast?_append, h]; rfl

theorem trim_spec (s : Bytes) : Trimmed s (trim s) := by
  obtain ⟨b, hb, hwb⟩ := trimEnd_spec s
  obtain ⟨a, ha, hwa⟩ := trimStart_spec (trimEnd s)
  refine ⟨a, b, ?_, hwa, hwb, fun c hc => trimStart_head hc, fun c hc => ?_⟩
  · rw [trim, ← ha, ← hb]
  · refine trimEnd_last (s := s) ?_
    rw [ha]; exact getLast?_suffix hc

theorem trim_unique {s t : Bytes} (h : Trimmed s t) : trim s = t := by
  obtain ⟨a, b, rfl, ha, hb, h1, h2⟩ := h
  rw [blank_all] at ha hb
  cases ht : t with
  | nil =>
    have h0 : trimEnd (a ++ [] ++ b) = [] := by
      unfold trimEnd
      rw [show a ++ [] ++ b = a ++ b by simp]
      have : (a ++ b).reverse.dropWhile isSpace = [] := by
        have h3 : ∀ c ∈ (a ++ b).reverse, isSpace c = true := ?_
        · have := dropWhile_append_all (l := []) h3
          simpa using this
        intro c hc
        rw [List.mem_reverse, List.mem_append] at hc
        rcases hc with hc | hc
        · exact ha c hc
        · exact hb c hc
      rw [this]; rfl
    rw [trim, h0]; rfl
  | cons d t' =>
    rw [← ht]
    have hne : t ≠ [] := by rw [ht]; simp
    have e1 : trimEnd (a ++ t ++ b) = a ++ t := by
      unfold trimEnd
      rw [List.reverse_append, dropWhile_append_all (by intro c hc; exact hb c (List.mem_reverse.1 hc)), dropWhile_head, List.reverse_reverse]
      intro c hc
      rw [List.head?_reverse, getLast?_append_ne_nil a hne] at hc
      have := h2 c hc
      rw [← isSpace_iff] at this; simpa using this
    rw [trim, e1, trimStart, dropWhile_append_all ha, dropWhile_head]
    intro c hc
    have := h1 c hc
    rw [← isSpace_iff] at this; simpa using this

theorem trim_iff {s t : Bytes} : trim s = t ↔ Trimmed s t := ⟨fun h => h ▸ trim_spec s, trim_unique⟩

theorem trim_bare {t : Bytes} (h : Bare t) : trim t = t := trim_unique ⟨[], [], by simp, by simp [Blank], by simp [Blank], h⟩

theorem bare_trim (s : Bytes) : Bare (trim s) := (trim_spec s).choose_spec.choose_spec.2.2.2

theorem trim_trim (s : Bytes) : trim (trim s) = trim s := trim_bare (bare_trim s)

/-! ## Splitting -/

theorem dropWhile_ne_cons {d x : UInt8} {s r : Bytes} (h : s.dropWhile (· ≠ d) = x :: r) :
    x = d ∧ s = s.takeWhile (· ≠ d) ++ d :: r ∧ d ∉ s.takeWhile (· ≠ d) := by
  have hx : x = d := by
    have := head_dropWhile (p := (· ≠ d)) (l := s) (c := x) (by rw [h]; rfl)
    simpa using this
  refine ⟨hx, ?_, ?_⟩
  · have := List.takeWhile_append_dropWhile (p := (· ≠ d)) (l := s)
    rw [h, hx] at this
    exact this.symm
  · intro hm
    have := mem_takeWhile_imp hm
    simp at this

theorem dropWhile_ne_nil {d : UInt8} {s : Bytes} (h : s.dropWhile (· ≠ d) = []) : s.takeWhile (· ≠ d) = s ∧ d ∉ s := by
  have h1 := List.takeWhile_append_dropWhile (p := (· ≠ d)) (l := s)
  rw [h, List.append_nil] at h1
  refine ⟨h1, fun hm => ?_⟩
  rw [← h1] at hm
  have := mem_takeWhile_imp hm
  simp at this

theorem splitOnFirst_cases (d : UInt8) (s : Bytes) :
    (splitOnFirst d s = [s] ∧ d ∉ s) ∨ ∃ a b, splitOnFirst d s = [a, b] ∧ s = a ++ d :: b ∧ d ∉ a := by
  unfold splitOnFirst
  split
  · rename_i h; exact .inl ⟨rfl, (dropWhile_ne_nil h).2⟩
  · rename_i x r h
    obtain ⟨_, h2, h3⟩ := dropWhile_ne_cons h
    exact .inr ⟨_, _, rfl, h2, h3⟩

theorem append_cons_inj {d : UInt8} {a b a' b' : Bytes} (h : a ++ d :: b = a' ++ d :: b') (ha : d ∉ a) (ha' : d ∉ a') : a = a' ∧ b = b' := by
  induction a generalizing a' with
  | nil =>
    cases a' with
    | nil => simpa using h
    | cons x a' => simp at h; exact absurd h.1 (by intro hx; subst hx; simp at ha')
  | cons x a ih =>
    cases a' with
    | nil => simp at h; exact absurd h.1 (by intro hx; subst hx; simp at ha)
    | cons y a' =>
      simp at h ha ha'
      obtain ⟨h1, h2⟩ := ih (by simpa using h.2) ha.2 ha'.2
      exact ⟨by rw [h.1, h1], h2⟩

theorem keyValue_iff {line k v : Bytes} : keyValueFromLine line = some (k, v) ↔
    ∃ a b, line = a ++ asc ':' :: b ∧ asc ':' ∉ a ∧ Trimmed a k ∧ Trimmed b v ∧ k ≠ [] ∧ v ≠ [] := by
  unfold keyValueFromLine
  rcases splitOnFirst_cases (asc ':') line with ⟨h, hn⟩ | ⟨a, b, h, hl, hn⟩
  · rw [h]
    constructor
    · intro h'; simp at h'
    · rintro ⟨a, b, rfl, _⟩; simp at hn
  · rw [h]
    constructor
    · intro h'
      simp only at h'
      split at h'
      · simp at h'
      · rename_i hc
        simp at h' hc
        obtain ⟨rfl, rfl⟩ := h'
        exact ⟨a, b, hl, hn, trim_spec a, trim_spec b, hc.1, hc.2⟩
    · rintro ⟨a', b', hl', hn', hk, hv, hk0, hv0⟩
      rw [hl] at hl'
      obtain ⟨rfl, rfl⟩ := append_cons_inj hl' hn hn'
      simp only [trim_unique hk, trim_unique hv]
      simp [hk0, hv0]

theorem split_mem (d : UInt8) (s : Bytes) : ∀ p ∈ split d s, d ∉ p := by
  fun_induction split d s with
  | case1 => simp
  | case2 s hs h =>
    intro p hp
    simp at hp; subst hp
    intro hm; have := mem_takeWhile_imp hm; simp at this
  | case3 s hs x r h ih =>
    intro p hp
    simp only [List.mem_cons] at hp
    rcases hp with rfl | hp
    · intro hm; have := mem_takeWhile_imp hm; simp at this
    · exact ih p hp

theorem split_nil {d : UInt8} {s : Bytes} (h : split d s = []) : s = [] := by
  rw [split.eq_def] at h
  split at h
  · assumption
  · split at h <;> simp at h

theorem split_join (d : UInt8) (s : Bytes) :
    (s.getLast? ≠ some d → [d].intercalate (split d s) = s) ∧ (s.getLast? = some d → [d].intercalate (split d s) ++ [d] = s) := by
  fun_induction split d s with
  | case1 => simp [List.intercalate]
  | case2 s hs h =>
    obtain ⟨h1, h2⟩ := dropWhile_ne_nil h
    rw [h1]
    refine ⟨fun _ => by simp [List.intercalate], fun hl => ?_⟩
    exact absurd (List.mem_of_getLast? hl) h2
  | case3 s hs x r h ih =>
    obtain ⟨rfl, h2, h3⟩ := dropWhile_ne_cons h
    generalize ht : s.takeWhile (· ≠ x) = t at h2 h3
    subst h2
    cases hr : split x r with
    | nil =>
      have := split_nil hr; subst this
      simp [List.intercalate]
    | cons p q =>
      have hr0 : r ≠ [] := by rintro rfl; simp [split] at hr
      rw [hr] at ih
      have hl : (t ++ x :: r).getLast? = r.getLast? := by
        rw [show t ++ x :: r = (t ++ [x]) ++ r by simp]; exact getLast?_append_ne_nil _ hr0
      rw [hl]
      simp only [List.intercalate] at ih ⊢
      constructor
      · intro hh; have := ih.1 hh; simp [List.intersperse_cons_cons] at this ⊢; exact this
      · intro hh; have := ih.2 hh; simp [List.intersperse_cons_cons] at this ⊢; exact this

theorem trimInfo_spec {s : Bytes} (h : ¬ Blank s) : ∃ f n : Nat, trimInfo s = ((f : Int), (n : Int)) ∧ (s.drop f).take n = trim s ∧ 0 < n := by
  obtain ⟨a, b, hs, ha, hb, h1, h2⟩ := trim_spec s
  have hne : trim s ≠ [] := by
    intro h0; rw [h0] at hs; apply h; rw [hs]
    intro c hc
    simp at hc
    rcases hc with hc | hc
    · exact ha c hc
    · exact hb c hc
  generalize ht : trim s = t at *
  have e1 : s.takeWhile isSpace = a := by
    rw [hs, List.append_assoc, List.takeWhile_append_of_pos (by rw [blank_all] at ha; exact ha)]
    cases t with
    | nil => simp at hne
    | cons c t =>
      have := h1 c rfl
      rw [← isSpace_iff] at this
      simp [List.takeWhile_cons, this]
  have e2 : s.reverse.takeWhile isSpace = b.reverse := by
    rw [hs, List.reverse_append, List.takeWhile_append_of_pos (by rw [blank_all] at hb; intro c hc; exact hb c (List.mem_reverse.1 hc))]
    rw [List.reverse_append]
    cases hr : t.reverse with
    | nil => simp at hr; exact absurd hr hne
    | cons c t' =>
      have := h2 c (by rw [← List.head?_reverse, hr]; rfl)
      rw [← isSpace_iff] at this
      simp [List.takeWhile_cons, this]
  refine ⟨a.length, t.length, ?_, ?_, List.length_pos_iff.2 hne⟩
  · unfold trimInfo
    rw [e1, e2]
    have : s.length = a.length + t.length + b.length := by rw [hs]; simp; omega
    simp only [List.length_reverse, this, Prod.mk.injEq, true_and]
    push_cast; omega
  · rw [hs]; simp

/-! ## Escapes -/

theorem findSub_some {p : Bytes} : ∀ {s : Bytes} {e : Nat}, findSub p s = some e → ∃ r, s = s.take e ++ p ++ r ∧ e ≤ s.length
  | [], e, h => by
    unfold findSub at h
    split at h
    · rename_i hp; cases h; subst hp; exact ⟨[], by simp, by simp⟩
    · cases h
  | c :: s, e, h => by
    unfold findSub at h
    split at h
    · rename_i hp
      cases h
      obtain ⟨r, hr⟩ := List.isPrefixOf_iff_prefix.1 hp
      exact ⟨r, by simp [hr], by simp⟩
    · obtain ⟨e', he, rfl⟩ := Option.map_eq_some_iff.1 h
      obtain ⟨r, hr, hl⟩ := findSub_some he
      refine ⟨r, ?_, by simp; omega⟩
      rw [List.take_succ_cons]
      simp only [List.cons_append, List.cons.injEq, true_and]
      exact hr

theorem findSub_none {p : Bytes} : ∀ {s : Bytes}, findSub p s = none → ¬ p <:+: s
  | [], h => by
    unfold findSub at h
    split at h
    · cases h
    · intro hi; simp at hi; contradiction
  | c :: s, h => by
    unfold findSub at h
    split at h
    · cases h
    · rename_i hp
      simp at h
      rw [List.infix_cons_iff]
      rintro (hi | hi)
      · exact hp (List.isPrefixOf_iff_prefix.2 hi)
      · exact findSub_none h hi

/-- The first occurrence. -/
theorem findSub_eq {p : Bytes} : ∀ {t r : Bytes}, (∀ a b, t = a ++ b → b ≠ [] → ¬ p <+: b ++ p ++ r) → findSub p (t ++ p ++ r) = some t.length
  | [], r, h => by
    cases hp : p ++ r with
    | nil => simp at hp; simp [hp, findSub]
    | cons c s =>
      simp only [List.nil_append, hp, findSub]
      rw [if_pos]
      · rfl
      · rw [← hp]; exact List.isPrefixOf_iff_prefix.2 (List.prefix_append p r)
  | c :: t, r, h => by
    have h0 := h [] (c :: t) (by simp) (by simp)
    simp only [List.cons_append, findSub] at h0 ⊢
    rw [if_neg (by rw [List.isPrefixOf_iff_prefix]; exact h0), findSub_eq (t := t)]
    · simp
    · intro a b hab hb
      exact h (c :: a) b (by simp [hab]) hb

theorem retrieve_drop (s : Bytes) (i : Nat) (hi : i ≤ s.length) :
    (retrieveEscaped s i).1 = (retrieveEscaped (s.drop i) 0).1 ∧
      ((retrieveEscaped s i).1 ≠ [] → (retrieveEscaped s i).2 = (retrieveEscaped (s.drop i) 0).2) := by
  unfold retrieveEscaped
  simp only [List.drop_zero, List.drop_drop, Nat.add_zero]
  generalize hl : ((s.drop i).takeWhile _).length = l
  rw [show i + l = l + i by omega]
  cases hf : findSub ((s.drop i).take l) (s.drop (l + i)) with
  | none => simp
  | some e => simp; intro _; congr 1; omega

/-- The parts of an escape. -/
theorem retrieve_parts (c : UInt8) (s : Bytes) : ∃ l d, 0 < l ∧ c :: s = List.replicate l c ++ d ∧ d.head? ≠ some c ∧
    ∀ strip, retrieveEscaped (c :: s) 0 strip = match findSub (List.replicate l c) d with
      | none => ([], c :: s)
      | some e => if strip then (d.take e, d.drop e) else (List.replicate l c ++ d.take (e + l), d.drop (e + l)) := by
  refine ⟨((c :: s).takeWhile (fun x => decide (x = c))).length, (c :: s).dropWhile (fun x => decide (x = c)), by simp, ?_, ?_, ?_⟩
  all_goals
    generalize hl : ((c :: s).takeWhile (fun x => decide (x = c))).length = l
    have h1 := List.takeWhile_append_dropWhile (p := fun x => decide (x = c)) (l := c :: s)
    have h2 : (c :: s).takeWhile (fun x => decide (x = c)) = List.replicate l c := by
      rw [List.eq_replicate_iff]
      refine ⟨hl, fun b hb => ?_⟩
      have := mem_takeWhile_imp hb
      simpa using this
    rw [h2] at h1
  · exact h1.symm
  · intro h
    have := head_dropWhile h
    simp at this
  · intro strip
    have ht : (c :: s).take l = List.replicate l c := by
      conv => lhs; rw [← h1]
      rw [List.take_left' (by simp)]
    have hd : (c :: s).drop l = (c :: s).dropWhile (fun x => decide (x = c)) := by
      conv => lhs; rw [← h1]
      rw [List.drop_left' (by simp)]
    unfold retrieveEscaped
    simp only [List.drop_zero, List.headD_cons, Nat.add_zero, Nat.zero_add, hl, ht, hd]
    cases findSub (List.replicate l c) ((c :: s).dropWhile (fun x => decide (x = c))) with
    | none => rfl
    | some e =>
      simp only []
      cases strip with
      | true => simp only [↓reduceIte]; rw [← List.drop_drop, hd]
      | false =>
        simp only [Bool.false_eq_true, ↓reduceIte]
        rw [show e + 2 * l = l + (e + l) by omega, List.take_add, ht, hd, ← List.drop_drop, hd]

/-- An escape that is found: as many of the same character as there are, a text, and as many again. -/
theorem retrieve_some {c : UInt8} {s : Bytes} (h : (retrieveEscaped (c :: s) 0).1 ≠ []) :
    ∃ n t, c :: s = List.replicate n c ++ t ++ List.replicate n c ++ (retrieveEscaped (c :: s) 0).2 ∧ 0 < n ∧
      (retrieveEscaped (c :: s) 0).1 = List.replicate n c ++ t ++ List.replicate n c ∧ t.head? ≠ some c := by
  obtain ⟨l, d, hl, hs, hd, hr⟩ := retrieve_parts c s
  rw [hr] at h ⊢
  cases hf : findSub (List.replicate l c) d with
  | none => rw [hf] at h; simp at h
  | some e =>
    obtain ⟨r, he, hle⟩ := findSub_some hf
    have hlen : (d.take e).length = e := by simp; omega
    simp only [Bool.false_eq_true, ↓reduceIte]
    have h1 : d.take (e + l) = d.take e ++ List.replicate l c := by
      rw [List.take_add]; congr 1
      have : d.drop e = List.replicate l c ++ r := by
        conv => lhs; rw [he]
        rw [List.append_assoc, List.drop_left' hlen]
      rw [this, List.take_left' (by simp)]
    refine ⟨l, d.take e, ?_, hl, by rw [h1]; simp, ?_⟩
    · rw [hs, List.append_assoc (List.replicate l c), ← h1, List.append_assoc, List.take_append_drop]
    · intro hh
      apply hd
      cases d with
      | nil => simp at hh
      | cons x d => cases e <;> simp at hh ⊢; exact hh

end Verif.Text
