import Verif.Spec.Parameters
import Verif.Proof.UriTemplate
import Verif.Proof.Text
import Verif.Proof.Util
import Mathlib.Data.List.Induction
namespace Verif.Parameters
open Verif Verif.Spec Verif.Text

/-! ## The list of parameters -/

theorem keepLast_mem {M} {x : Parameter × M} : ∀ {xs : List (Parameter × M)}, x ∈ keepLast xs → x ∈ xs
  | [], h => by simp [keepLast] at h
  | y :: ys, h => by
    simp only [keepLast] at h
    split at h
    · exact List.mem_cons_of_mem _ (keepLast_mem h)
    · rcases List.mem_cons.1 h with rfl | h
      · simp
      · exact List.mem_cons_of_mem _ (keepLast_mem h)

theorem keepLast_names {M} {n : Bytes} : ∀ {xs : List (Parameter × M)}, n ∈ (keepLast xs).map (·.1.name) ↔ n ∈ xs.map (·.1.name)
  | [] => by simp [keepLast]
  | y :: ys => by
    simp only [keepLast]
    split
    · rename_i h
      rw [keepLast_names]
      simp only [List.map_cons, List.mem_cons]
      exact ⟨.inr, fun h' => h'.elim (fun e => e ▸ h) id⟩
    · simp only [List.map_cons, List.mem_cons, keepLast_names]

theorem keepLast_nodup {M} : ∀ (xs : List (Parameter × M)), ((keepLast xs).map (·.1.name)).Nodup
  | [] => by simp [keepLast]
  | y :: ys => by
    simp only [keepLast]
    split
    · exact keepLast_nodup ys
    · rename_i h
      simp only [List.map_cons, List.nodup_cons]
      exact ⟨fun h' => h (keepLast_names.1 h'), keepLast_nodup ys⟩

theorem keepLast_snoc {M} (x : Parameter × M) : ∀ (xs : List (Parameter × M)),
    keepLast (xs ++ [x]) = (keepLast xs).filter (fun y => y.1.name ≠ x.1.name) ++ [x]
  | [] => by simp [keepLast]
  | y :: ys => by
    simp only [List.cons_append, keepLast]
    by_cases hxy : y.1.name = x.1.name
    · rw [if_pos (by simp [hxy]), keepLast_snoc x ys]
      split
      · rfl
      · rw [List.filter_cons, if_neg (by simp [hxy])]
    · by_cases hy : y.1.name ∈ ys.map (·.1.name)
      · rw [if_pos (by rw [List.map_append]; exact List.mem_append_left _ hy), if_pos hy, keepLast_snoc x ys]
      · rw [if_neg (by simp only [List.map_append, List.map_cons, List.map_nil, List.mem_append, List.mem_singleton, not_or]; exact ⟨hy, hxy⟩),
          if_neg hy, keepLast_snoc x ys, List.filter_cons, if_pos (by simp [hxy])]
        rfl

theorem redefined_snoc {M} (x : Parameter × M) : ∀ (xs : List (Parameter × M)) (seen : List Bytes),
    redefined seen (xs ++ [x]) = redefined seen xs ++ (if x.1.name ∈ seen ∨ x.1.name ∈ xs.map (·.1.name) then [x.1.name] else [])
  | [], seen => by simp [redefined]
  | y :: ys, seen => by
    simp only [List.cons_append, redefined, redefined_snoc x ys, List.append_assoc, List.mem_cons, List.map_cons]
    congr 3
    simp only [eq_iff_iff]; tauto

/-- Erasing the first element with a name from a list with different names erases all of that name. -/
theorem erase_filter {M} (n : Bytes) : ∀ (l : List (Parameter × M)), (l.map (·.1.name)).Nodup →
    (match l.findIdx? (fun q => q.1.name == n) with | none => l | some i => l.eraseIdx i) = l.filter (fun y => y.1.name ≠ n)
  | [], _ => rfl
  | y :: ys, h => by
    simp only [List.map_cons, List.nodup_cons] at h
    rw [List.findIdx?_cons, List.filter_cons]
    by_cases hy : y.1.name = n
    · rw [if_pos (by simp [hy]), if_neg (by simp [hy])]
      simp only [List.eraseIdx_cons_zero]
      symm
      rw [List.filter_eq_self]
      intro z hz
      simp only [decide_eq_true_eq]
      intro he; exact h.1 (by rw [hy, ← he]; exact List.mem_map_of_mem hz)
    · rw [if_neg (by simp [hy]), if_pos (by simp [hy])]
      have ih := erase_filter n ys h.2
      cases hf : ys.findIdx? (fun q => q.1.name == n) with
      | none => rw [hf] at ih; simp only [Option.map_none] at ih ⊢; rw [← ih]
      | some i => rw [hf] at ih; simp only [Option.map_some, List.eraseIdx_cons_succ] at ih ⊢; rw [ih]

theorem map_eraseIdx {α β} (f : α → β) : ∀ (l : List α) (i : Nat), (l.eraseIdx i).map f = (l.map f).eraseIdx i
  | [], _ => rfl
  | _ :: _, 0 => rfl
  | a :: l, i + 1 => by simp [map_eraseIdx f l i]

theorem addParameters_eq {M} (e : Bool) (items : List (Parameter × M)) :
    addParameters e items = ⟨(keepLast items).map (·.1), if e then (keepLast items).map (·.2) else [], redefined [] items⟩ := by
  induction items using List.reverseRecOn with
  | nil => cases e <;> rfl
  | append_singleton xs x ih =>
    unfold addParameters at ih ⊢
    rw [List.foldl_append, ih, List.foldl_cons, List.foldl_nil]
    have hf : findParameter ((keepLast xs).map (·.1)) x.1 = (keepLast xs).findIdx? (fun q => q.1.name == x.1.name) := by
      unfold findParameter; rw [List.findIdx?_map]; rfl
    have her := erase_filter x.1.name (keepLast xs) (keepLast_nodup xs)
    have hnone : (keepLast xs).findIdx? (fun q => q.1.name == x.1.name) = none ↔ x.1.name ∉ xs.map (·.1.name) := by
      rw [List.findIdx?_eq_none_iff, ← keepLast_names]
      simp only [beq_eq_false_iff_ne, List.mem_map, not_exists, not_and]
    rw [keepLast_snoc, redefined_snoc]
    unfold addParameter
    rw [hf]
    cases hi : (keepLast xs).findIdx? (fun q => q.1.name == x.1.name) with
    | none =>
      rw [hi] at her
      have hx := hnone.1 hi
      simp only at her ⊢
      have hif : (if x.1.name ∈ ([] : List Bytes) ∨ x.1.name ∈ xs.map (·.1.name) then [x.1.name] else []) = [] :=
        if_neg (by rintro (h | h); · simp at h
                   · exact hx h)
      rw [← her, hif]
      cases e <;> simp
    | some i =>
      rw [hi] at her
      have hx : x.1.name ∈ xs.map (·.1.name) := by
        by_cases h : x.1.name ∈ xs.map (·.1.name)
        · exact h
        · rw [hnone.2 h] at hi; exact absurd hi (by simp)
      simp only at her ⊢
      have hif : (if x.1.name ∈ ([] : List Bytes) ∨ x.1.name ∈ xs.map (·.1.name) then [x.1.name] else []) = [x.1.name] := if_pos (.inr hx)
      rw [← her, hif]
      cases e <;> simp [removeParameter, map_eraseIdx]

theorem keepLast_last {M} {x : Parameter × M} {a b : List (Parameter × M)} (h : x.1.name ∉ b.map (·.1.name)) : x ∈ keepLast (a ++ x :: b) := by
  induction a with
  | nil => simp only [List.nil_append, keepLast, if_neg h]; simp
  | cons y a ih =>
    simp only [List.cons_append, keepLast]
    split
    · exact ih
    · exact List.mem_cons_of_mem _ ih

/-! ## Eligibility -/

theorem variableNames_iff {uri n : Bytes} : n ∈ variableNames uri ↔ HasVariable uri n := by
  unfold variableNames HasVariable
  rw [List.mem_flatMap]
  constructor
  · rintro ⟨p, hp, hn⟩
    cases p with
    | expression e =>
      simp only [List.mem_filterMap] at hn
      obtain ⟨i, hi, he⟩ := hn
      cases i with
      | «variable» v => exact ⟨_, e, v, UriTemplate.parseParts_iff.1 rfl, hp, hi, Option.some.inj he⟩
      | invalid => exact absurd he (by simp)
    | literals => simp at hn
    | invalid => simp at hn
  · rintro ⟨ps, e, v, hps, he, hv, rfl⟩
    rw [UriTemplate.parseParts_iff.2 hps]
    exact ⟨_, he, List.mem_filterMap.2 ⟨_, hv, rfl⟩⟩

/-! ## Traits -/

theorem blank_iff {c : UInt8} : blank c = true ↔ c = asc ' ' ∨ c = asc '\t' := by simp [blank]

theorem strip_word {w a : Bytes} (hw : w ≠ []) (h1 : ∀ c, w.head? = some c → blank c = false) (h2 : ∀ c, w.getLast? = some c → blank c = false)
    (h0 : (0 : UInt8) ∉ a) : ((((a.takeWhile (· ≠ 0)).dropWhile blank).reverse.dropWhile blank).reverse = w) ↔ Word w a := by
  have ht : a.takeWhile (· ≠ 0) = a := takeWhile_all (by intro c hc; simp; rintro rfl; exact h0 hc)
  rw [ht]
  constructor
  · intro h
    refine ⟨a.takeWhile blank, (((a.dropWhile blank).reverse).takeWhile blank).reverse, ?_, ?_⟩
    · intro c hc
      rw [List.mem_append, List.mem_reverse] at hc
      exact blank_iff.1 (hc.elim mem_takeWhile_imp mem_takeWhile_imp)
    · rw [← h, List.append_assoc, ← List.reverse_append, List.takeWhile_append_dropWhile, List.reverse_reverse, List.takeWhile_append_dropWhile]
  · rintro ⟨l, r, hb, rfl⟩
    have hl : ∀ c ∈ l, blank c = true := fun c hc => blank_iff.2 (hb c (by simp [hc]))
    have hr : ∀ c ∈ r.reverse, blank c = true := fun c hc => blank_iff.2 (hb c (by simp at hc; simp [hc]))
    have e : (w ++ r).dropWhile blank = w ++ r := dropWhile_head (by
      intro c hc
      cases w with
      | nil => exact absurd rfl hw
      | cons d w => exact h1 c (by simpa using hc))
    rw [List.append_assoc, dropWhile_append_all hl, e, List.reverse_append, dropWhile_append_all hr, dropWhile_head]
    · simp
    · intro c hc; rw [List.head?_reverse] at hc; exact h2 c hc

theorem matchesWord_iff {lo up a : Bytes} (hl : lo ≠ [] ∧ (∀ c, lo.head? = some c → blank c = false) ∧ (∀ c, lo.getLast? = some c → blank c = false))
    (hu : up ≠ [] ∧ (∀ c, up.head? = some c → blank c = false) ∧ (∀ c, up.getLast? = some c → blank c = false)) (h0 : (0 : UInt8) ∉ a) :
    matchesWord lo up a = true ↔ Word lo a ∨ Word up a := by
  unfold matchesWord
  simp only [Bool.or_eq_true, beq_iff_eq]
  rw [strip_word hl.1 hl.2.1 hl.2.2 h0, strip_word hu.1 hu.2.1 hu.2.2 h0]

theorem word_ok (w : Bytes) (h : (w.head?.all (fun c => !blank c) && w.getLast?.all (fun c => !blank c) && !w.isEmpty) = true) :
    w ≠ [] ∧ (∀ c, w.head? = some c → blank c = false) ∧ (∀ c, w.getLast? = some c → blank c = false) := by
  simp only [Bool.and_eq_true] at h
  refine ⟨by rintro rfl; simp at h, fun c hc => ?_, fun c hc => ?_⟩
  · have := h.1.1; rw [hc] at this; simpa using this
  · have := h.1.2; rw [hc] at this; simpa using this

theorem isOptional_iff {a : Bytes} (h0 : (0 : UInt8) ∉ a) : isOptional a = true ↔ SaysOptional a :=
  matchesWord_iff (word_ok _ (by decide)) (word_ok _ (by decide)) h0
theorem isRequired_iff {a : Bytes} (h0 : (0 : UInt8) ∉ a) : isRequired a = true ↔ SaysRequired a :=
  matchesWord_iff (word_ok _ (by decide)) (word_ok _ (by decide)) h0

theorem takeWhile_quote {v y : Bytes} (hv : asc '`' ∉ v) : (v ++ asc '`' :: y).takeWhile (· ≠ asc '`') = v := by
  induction v with
  | nil => rw [List.nil_append, List.takeWhile_cons, if_neg (by simp)]
  | cons c v ih =>
    rw [List.cons_append, List.takeWhile_cons, if_pos, ih (fun h => hv (by simp [h]))]
    simp only [ne_eq, decide_eq_true_eq]; rintro rfl; simp at hv

theorem example_iff {a v : Bytes} (h0 : (0 : UInt8) ∉ a) : example? a = some v ↔ Quoted v a := by
  have ht : a.takeWhile (· ≠ 0) = a := takeWhile_all (by intro c hc; simp; rintro rfl; exact h0 hc)
  unfold example?
  rw [ht]
  constructor
  · intro h
    split at h
    · exact absurd h (by simp)
    · rename_i d r hd
      split at h
      · rename_i hm
        have hv := Option.some.inj h
        obtain ⟨rfl, -, ha⟩ : d = asc '`' ∧ asc '`' ∉ a.takeWhile (· ≠ asc '`') ∧ a = a.takeWhile (· ≠ asc '`') ++ d :: r := by
          refine ⟨?_, ?_, ?_⟩
          · have := head_dropWhile (p := fun c => decide (c ≠ asc '`')) (l := a) (c := d) (by rw [hd]; rfl)
            simpa using this
          · intro h; have := mem_takeWhile_imp h; simp at this
          · rw [← hd, List.takeWhile_append_dropWhile]
        obtain ⟨y, hy⟩ : ∃ y, r = v ++ asc '`' :: y := by
          rw [← hv]
          have hsplit := List.takeWhile_append_dropWhile (p := fun c => decide (c ≠ asc '`')) (l := r)
          cases hdr : r.dropWhile (fun c => decide (c ≠ asc '`')) with
          | nil =>
            rw [hdr, List.append_nil] at hsplit
            rw [← hsplit] at hm
            have := mem_takeWhile_imp hm; simp at this
          | cons e y =>
            have he := head_dropWhile (p := fun c => decide (c ≠ asc '`')) (l := r) (c := e) (by rw [hdr]; rfl)
            simp only [ne_eq, decide_not, Bool.not_eq_false', decide_eq_true_eq] at he
            subst he
            exact ⟨y, by rw [← hdr, hsplit]⟩
        refine ⟨a.takeWhile (· ≠ asc '`'), y, ?_, ?_, ?_⟩
        · rw [hy] at ha; rw [List.append_assoc]; exact ha
        · intro h; have := mem_takeWhile_imp h; simp at this
        · rw [← hv]; intro h; have := mem_takeWhile_imp h; simp at this
      · exact absurd h (by simp)
  · rintro ⟨x, y, rfl, hx, hv⟩
    have : (x ++ asc '`' :: v ++ asc '`' :: y).dropWhile (· ≠ asc '`') = asc '`' :: (v ++ asc '`' :: y) := by
      rw [List.append_assoc, dropWhile_append_all (by intro c hc; simp; rintro rfl; exact hx hc)]
      rw [List.cons_append, List.dropWhile_cons, if_neg (by simp)]
    rw [this]
    simp only [takeWhile_quote hv]
    rw [if_pos (by simp)]

/-- The trait of an attribute. -/
def trait (old : Bool) (a : Bytes) : Trait :=
  if isOptional a then .use .optional else if isRequired a then .use .required
  else match (if old then example? a else none) with
    | some v => .sample v
    | none => .type a

theorem word_unique {w w' a : Bytes} (hl : w.length = w'.length) (hw : ∀ c, w.head? = some c → blank c = false) (hw' : ∀ c, w'.head? = some c → blank c = false)
    (hne : w ≠ []) (h : Word w a) (h' : Word w' a) : w = w' := by
  obtain ⟨l, r, hb, rfl⟩ := h
  obtain ⟨l', r', hb', he⟩ := h'
  have key : ∀ (l w r : Bytes), (∀ c ∈ l, blank c = true) → w ≠ [] → (∀ c, w.head? = some c → blank c = false) → (l ++ w ++ r).dropWhile blank = w ++ r := by
    intro l w r hl hw hh
    rw [List.append_assoc, dropWhile_append_all hl, dropWhile_head]
    intro c hc; cases w with
    | nil => exact absurd rfl hw
    | cons d w => exact hh c (by simpa using hc)
  have hne' : w' ≠ [] := by intro h; rw [h] at hl; exact hne (List.length_eq_zero_iff.1 hl)
  have h1 := key l w r (fun c hc => blank_iff.2 (hb c (by simp [hc]))) hne hw
  have h2 := key l' w' r' (fun c hc => blank_iff.2 (hb' c (by simp [hc]))) hne' hw'
  rw [he, h2] at h1
  exact (List.append_inj h1 hl.symm).1.symm

theorem not_both {a : Bytes} (h1 : SaysOptional a) (h2 : SaysRequired a) : False := by
  have ho := word_ok (str "optional") (by decide)
  have hO := word_ok (str "Optional") (by decide)
  have hr := word_ok (str "required") (by decide)
  have hR := word_ok (str "Required") (by decide)
  rcases h1 with h1 | h1 <;> rcases h2 with h2 | h2
  · exact absurd (word_unique (by decide) ho.2.1 hr.2.1 ho.1 h1 h2) (by decide)
  · exact absurd (word_unique (by decide) ho.2.1 hR.2.1 ho.1 h1 h2) (by decide)
  · exact absurd (word_unique (by decide) hO.2.1 hr.2.1 hO.1 h1 h2) (by decide)
  · exact absurd (word_unique (by decide) hO.2.1 hR.2.1 hO.1 h1 h2) (by decide)

theorem says_trait {old : Bool} {a : Bytes} {t : Trait} (h0 : (0 : UInt8) ∉ a) : Says old a t ↔ trait old a = t := by
  have ho := isOptional_iff h0
  have hr := isRequired_iff h0
  constructor
  · intro h
    unfold trait
    cases h with
    | optional h => rw [if_pos (ho.2 h)]
    | required h => rw [if_neg (fun h' => not_both (ho.1 h') h), if_pos (hr.2 h)]
    | sample h1 h2 h3 h4 => subst h3; rw [if_neg (fun h => h1 (ho.1 h)), if_neg (fun h => h2 (hr.1 h)), if_pos rfl, (example_iff h0).2 h4]
    | type h1 h2 h3 =>
      rw [if_neg (fun h => h1 (ho.1 h)), if_neg (fun h => h2 (hr.1 h))]
      cases old with
      | false => rfl
      | true =>
        cases he : example? a with
        | none => simp [he]
        | some v => exact absurd ((example_iff h0).1 he) (h3 rfl v)
  · intro h
    subst h
    unfold trait
    split
    · exact .optional (ho.1 ‹_›)
    · split
      · exact .required (hr.1 ‹_›)
      · rename_i h1 h2
        have h1' : ¬ SaysOptional a := fun h => h1 (ho.2 h)
        have h2' : ¬ SaysRequired a := fun h => h2 (hr.2 h)
        cases old with
        | false => exact .type h1' h2' (by simp)
        | true =>
          cases he : example? a with
          | none => simp only [if_true, he]; exact .type h1' h2' (fun _ v hv => by rw [(example_iff h0).2 hv] at he; exact absurd he (by simp))
          | some v => simp only [if_true, he]; exact .sample h1' h2' rfl ((example_iff h0).1 he)

/-- The traits after those of the list. -/
def apply (ts : List Trait) (t : Traits) : Traits :=
  ts.foldl (fun t x => match x with | .use u => { t with use := u } | .sample v => { t with exampleValue := v } | .type a => { t with type := a }) t

def count (p : Trait → Bool) (ts : List Trait) : Nat := (ts.filter p).length

theorem count_cons (p : Trait → Bool) (x : Trait) (ts : List Trait) : count p (x :: ts) = (if p x then 1 else 0) + count p ts := by
  unfold count; rw [List.filter_cons]; split <;> simp_all [Nat.add_comm]

theorem readAttributes_eq (old : Bool) : ∀ (as : List Bytes) (defined : Bool) (t : Traits), (∀ a ∈ as, a ≠ []) →
    count isUse (as.map (trait old)) + (if defined then 1 else 0) ≤ 1 →
    (count isType (as.map (trait old)) + (if t.type.isEmpty then 0 else 1) ≤ 1 →
      readAttributes old as defined t = (apply (as.map (trait old)) t, false)) ∧
    (¬ count isType (as.map (trait old)) + (if t.type.isEmpty then 0 else 1) ≤ 1 → (readAttributes old as defined t).2 = true)
  | [], defined, t, _, _ => by
    refine ⟨fun _ => rfl, fun h => absurd ?_ h⟩
    simp only [List.map_nil, count, List.filter_nil, List.length_nil]; split <;> omega
  | a :: as, defined, t, hne, hu => by
    have hne' : ∀ b ∈ as, b ≠ [] := fun b hb => hne b (by simp [hb])
    rw [List.map_cons] at hu ⊢
    rw [count_cons] at hu ⊢
    by_cases ho : isOptional a = true
    · have ht : trait old a = .use .optional := by unfold trait; rw [if_pos ho]
      rw [ht] at hu ⊢
      have hd : defined = false := by cases defined; rfl; simp [isUse] at hu
      subst hd
      have hstep : readAttributes old (a :: as) false t = readAttributes old as true { t with use := .optional } := by
        rw [readAttributes, if_pos (by simp [ho])]
      rw [hstep]
      have := readAttributes_eq old as true { t with use := .optional } hne' (by simpa [isUse, Nat.add_comm] using hu)
      simpa [isType, apply] using this
    · by_cases hr : isRequired a = true
      · have ht : trait old a = .use .required := by unfold trait; rw [if_neg ho, if_pos hr]
        rw [ht] at hu ⊢
        have hd : defined = false := by cases defined; rfl; simp [isUse] at hu
        subst hd
        have hstep : readAttributes old (a :: as) false t = readAttributes old as true { t with use := .required } := by
          rw [readAttributes, if_neg (by simp [ho]), if_pos (by simp [hr])]
        rw [hstep]
        have := readAttributes_eq old as true { t with use := .required } hne' (by simpa [isUse, Nat.add_comm] using hu)
        simpa [isType, apply] using this
      · cases he : (if old = true then example? a else none) with
        | some v =>
          have ht : trait old a = .sample v := by unfold trait; rw [if_neg ho, if_neg hr, he]
          rw [ht] at hu ⊢
          have hstep : readAttributes old (a :: as) defined t = readAttributes old as defined { t with exampleValue := v } := by
            rw [readAttributes, if_neg (by simp [ho]), if_neg (by simp [hr]), he]
          rw [hstep]
          have := readAttributes_eq old as defined { t with exampleValue := v } hne' (by simpa [isUse] using hu)
          simpa [isType, apply] using this
        | none =>
          have ht : trait old a = .type a := by unfold trait; rw [if_neg ho, if_neg hr, he]
          rw [ht] at hu ⊢
          by_cases hty : t.type.isEmpty = true
          · have hstep : readAttributes old (a :: as) defined t = readAttributes old as defined { t with type := a } := by
              rw [readAttributes, if_neg (by simp [ho]), if_neg (by simp [hr]), he]
              simp only
              rw [if_neg (by simp [hty])]
            rw [hstep]
            have hae : a ≠ [] := hne a (by simp)
            have := readAttributes_eq old as defined { t with type := a } hne' (by simpa [isUse] using hu)
            have hae' : a.isEmpty = false := by simp [hae]
            simp only [hae', Bool.false_eq_true, if_false] at this
            simp only [isType, if_true, hty, Nat.add_zero, Nat.add_comm 1]
            exact this
          · have hstep : readAttributes old (a :: as) defined t = (cleared old t, true) := by
              rw [readAttributes, if_neg (by simp [ho]), if_neg (by simp [hr]), he]
              simp only
              rw [if_pos (by simp [hty])]
            refine ⟨fun h => absurd h ?_, fun _ => by rw [hstep]⟩
            simp only [isType, if_true, hty, Bool.false_eq_true, if_false]; omega

theorem cleared_of_warning (old : Bool) : ∀ (as : List Bytes) (defined : Bool) (t : Traits) (e : Bytes), (old = false → t.exampleValue = e) →
    (readAttributes old as defined t).2 = true → (readAttributes old as defined t).1 = { exampleValue := if old then [] else e }
  | [], _, _, _, _, h => by simp [readAttributes] at h
  | a :: as, defined, t, e, he, h => by
    unfold readAttributes at h ⊢
    split
    · rw [if_pos ‹_›] at h; exact cleared_of_warning old as true _ e he h
    · rw [if_neg ‹_›] at h
      split
      · rw [if_pos ‹_›] at h; exact cleared_of_warning old as true _ e he h
      · rw [if_neg ‹_›] at h
        cases hv : (if old = true then example? a else none) with
        | some v =>
          rw [hv] at h
          simp only at h ⊢
          refine cleared_of_warning old as defined _ e ?_ h
          intro ho; subst ho; simp at hv
        | none =>
          rw [hv] at h
          simp only at h ⊢
          split
          · cases old with
            | true => rfl
            | false => simp only [cleared, Bool.false_eq_true, if_false, he rfl]
          · rw [if_neg ‹_›] at h; exact cleared_of_warning old as defined _ e he h

theorem apply_use (ts : List Trait) (t : Traits) (h : count isUse ts ≤ 1) :
    (∀ u, .use u ∈ ts → (apply ts t).use = u) ∧ ((∀ u, .use u ∉ ts) → (apply ts t).use = t.use) := by
  induction ts generalizing t with
  | nil => exact ⟨fun u hu => by simp at hu, fun _ => rfl⟩
  | cons x ts ih =>
    rw [count_cons] at h
    cases x with
    | use u =>
      have h0 : ∀ u, .use u ∉ ts := by
        intro v hv
        have : 0 < count isUse ts := List.length_pos_iff.2 (List.ne_nil_of_mem (List.mem_filter.2 ⟨hv, rfl⟩))
        simp [isUse] at h; omega
      have := (ih { t with use := u } (by omega)).2 h0
      refine ⟨fun v hv => ?_, fun hn => absurd (by simp) (hn u)⟩
      rcases List.mem_cons.1 hv with hv | hv
      · injection hv with hv; subst hv; exact this
      · exact absurd hv (h0 v)
    | sample v =>
      have := ih { t with exampleValue := v } (by omega)
      exact ⟨fun u hu => this.1 u (by simpa using hu), fun hn => this.2 (fun u hu => hn u (by simp [hu]))⟩
    | type a =>
      have := ih { t with type := a } (by omega)
      exact ⟨fun u hu => this.1 u (by simpa using hu), fun hn => this.2 (fun u hu => hn u (by simp [hu]))⟩

theorem apply_type (ts : List Trait) (t : Traits) (h : count isType ts ≤ 1) :
    (∀ u, .type u ∈ ts → (apply ts t).type = u) ∧ ((∀ u, .type u ∉ ts) → (apply ts t).type = t.type) := by
  induction ts generalizing t with
  | nil => exact ⟨fun u hu => by simp at hu, fun _ => rfl⟩
  | cons x ts ih =>
    rw [count_cons] at h
    cases x with
    | type u =>
      have h0 : ∀ u, .type u ∉ ts := by
        intro v hv
        have : 0 < count isType ts := List.length_pos_iff.2 (List.ne_nil_of_mem (List.mem_filter.2 ⟨hv, rfl⟩))
        simp [isType] at h; omega
      have := (ih { t with type := u } (by omega)).2 h0
      refine ⟨fun v hv => ?_, fun hn => absurd (by simp) (hn u)⟩
      rcases List.mem_cons.1 hv with hv | hv
      · injection hv with hv; subst hv; exact this
      · exact absurd hv (h0 v)
    | sample v =>
      have := ih { t with exampleValue := v } (by omega)
      exact ⟨fun u hu => this.1 u (by simpa using hu), fun hn => this.2 (fun u hu => hn u (by simp [hu]))⟩
    | use a =>
      have := ih { t with use := a } (by omega)
      exact ⟨fun u hu => this.1 u (by simpa using hu), fun hn => this.2 (fun u hu => hn u (by simp [hu]))⟩

theorem apply_sample (ts : List Trait) (t : Traits) (h : count isSample ts ≤ 1) :
    (∀ u, .sample u ∈ ts → (apply ts t).exampleValue = u) ∧ ((∀ u, .sample u ∉ ts) → (apply ts t).exampleValue = t.exampleValue) := by
  induction ts generalizing t with
  | nil => exact ⟨fun u hu => by simp at hu, fun _ => rfl⟩
  | cons x ts ih =>
    rw [count_cons] at h
    cases x with
    | sample u =>
      have h0 : ∀ u, .sample u ∉ ts := by
        intro v hv
        have : 0 < count isSample ts := List.length_pos_iff.2 (List.ne_nil_of_mem (List.mem_filter.2 ⟨hv, rfl⟩))
        simp [isSample] at h; omega
      have := (ih { t with exampleValue := u } (by omega)).2 h0
      refine ⟨fun v hv => ?_, fun hn => absurd (by simp) (hn u)⟩
      rcases List.mem_cons.1 hv with hv | hv
      · injection hv with hv; subst hv; exact this
      · exact absurd hv (h0 v)
    | type v =>
      have := ih { t with type := v } (by omega)
      exact ⟨fun u hu => this.1 u (by simpa using hu), fun hn => this.2 (fun u hu => hn u (by simp [hu]))⟩
    | use a =>
      have := ih { t with use := a } (by omega)
      exact ⟨fun u hu => this.1 u (by simpa using hu), fun hn => this.2 (fun u hu => hn u (by simp [hu]))⟩

end Verif.Parameters
