import Verif.Proof.Yaml
import Verif.Proof.Json
namespace Verif.Yaml
open Verif Verif.So Verif.Spec Verif.Spec.Json Verif.Spec.Yaml Verif.Utf8

def NotSpace (t : Bytes) : Prop := t.head? ≠ some 0x20

/-- What may follow a value nested in a collection: nothing, or a line indented by less than `k`. -/
def Stop (k : Nat) (rest : Bytes) : Prop :=
  rest = [] ∨ ∃ j t, j < k ∧ rest = 0x0A :: (List.replicate j 0x20 ++ t) ∧ NotSpace t

theorem stop_mono {k k' : Nat} {rest : Bytes} (h : Stop k rest) (hk : k ≤ k') : Stop k' rest := by
  rcases h with h | ⟨j, t, h1, h2, h3⟩
  · exact Or.inl h
  · exact Or.inr ⟨j, t, by omega, h2, h3⟩

theorem spaces_rep (j : Nat) (t : Bytes) (h : NotSpace t) : spaces (List.replicate j 0x20 ++ t) = (j, t) := by
  induction j with
  | zero =>
    cases t with
    | nil => rfl
    | cons c r =>
      have : c ≠ 0x20 := by intro e; exact h (by simp [e])
      simp [spaces, this]
  | succ j ih => simp [List.replicate_succ, spaces, ih]

theorem stop_head {k : Nat} {rest : Bytes} (h : Stop k rest) : ∀ c, rest.head? = some c → (c ≠ 0x0A : Bool) = false := by
  intro c hc
  rcases h with h | ⟨j, t, h1, h2, h3⟩
  · subst h; simp at hc
  · subst h2; simp at hc; simp [← hc]

theorem readInline_dq (s : Bytes) (hs : WellFormed s) (rest : Bytes) :
    readInline (quoted s ++ rest) = some (.str s, rest) := by
  have := readDq_quoted s hs rest
  have e : quoted s ++ rest = 0x22 :: (escape s ++ 0x22 :: rest) := by simp [quoted, asc]
  rw [e]
  simp [readInline, this]

theorem inline_words {w rest : Bytes} (hw : w ≠ []) (hq : w.head? ≠ some 0x22) (hn : ∀ c ∈ w, (c ≠ 0x0A : Bool) = true)
    (hr : ∀ c, rest.head? = some c → (c ≠ 0x0A : Bool) = false) :
    readInline (w ++ rest) =
      (if w = str "null" then some (.null, rest)
      else if w = str "true" then some (.tru, rest)
      else if w = str "false" then some (.fls, rest)
      else if w = str "{}" then some (.obj [], rest)
      else if w = str "[]" then some (.arr [], rest)
      else if JsonNumber w then some (.num w, rest)
      else none) := by
  have h := Verif.Json.takeWhile_stop (s := w) (rest := rest) hn hr
  cases w with
  | nil => exact absurd rfl hw
  | cons c r =>
    have hc : c ≠ 0x22 := by intro e; exact hq (by simp [e])
    simp only [List.cons_append] at h ⊢
    simp only [readInline, hc, if_false, h.1, h.2]

theorem number_ne {s w : Bytes} (h : JsonNumber s) (hw : ¬ JsonNumber w) : s ≠ w := by
  intro e; subst e; exact hw h

theorem readInline_number (s : Bytes) (hs : JsonNumber s) {rest : Bytes}
    (hr : ∀ c, rest.head? = some c → (c ≠ 0x0A : Bool) = false) : readInline (s ++ rest) = some (.num s, rest) := by
  have hc := Verif.Json.numChar_of_number hs
  obtain ⟨c, r, e, hc'⟩ := Verif.Json.number_head hs
  have nn : ∀ c, isNumChar c = true → (c ≠ 0x0A : Bool) = true := forallU8 (by decide +kernel)
  have nq : ∀ c : UInt8, c = 0x2D ∨ (0x30 ≤ c ∧ c ≤ 0x39) → c ≠ 0x22 := forallU8 (by decide +kernel)
  rw [inline_words (by rw [e]; simp) (by rw [e]; simpa using nq c hc') (fun c h => nn c (hc c h)) hr]
  rw [if_neg (number_ne hs (by decide)), if_neg (number_ne hs (by decide)), if_neg (number_ne hs (by decide)),
    if_neg (number_ne hs (by decide)), if_neg (number_ne hs (by decide)), if_pos hs]

/-- Scalars and empty collections. -/
def Flat : Value → Prop
  | .obj (_ :: _) => False
  | .arr (_ :: _) => False
  | _ => True

theorem print_flat (v : Value) (h : Flat v) : ∃ w, ∀ i, print i v = lead i ++ w := by
  cases v with
  | null => exact ⟨str "null", fun _ => by simp only [print]⟩
  | tru => exact ⟨str "true", fun _ => by simp only [print]⟩
  | fls => exact ⟨str "false", fun _ => by simp only [print]⟩
  | str s => exact ⟨quoted s, fun _ => by simp only [print]⟩
  | num s => exact ⟨s, fun _ => by simp only [print]⟩
  | obj ms => cases ms with
    | nil => exact ⟨str "{}", fun _ => by simp only [print]⟩
    | cons => exact h.elim
  | arr ms => cases ms with
    | nil => exact ⟨str "[]", fun _ => by simp only [print]⟩
    | cons => exact h.elim

theorem readInline_flat (v : Value) (h : Flat v) (hv : YamlOk v) (rest : Bytes)
    (hr : ∀ c, rest.head? = some c → (c ≠ 0x0A : Bool) = false) : readInline (print 0 v ++ rest) = some (v, rest) := by
  cases v with
  | null =>
    show readInline (str "null" ++ rest) = _
    rw [inline_words (by decide) (by decide) (by decide) hr]; rfl
  | tru =>
    show readInline (str "true" ++ rest) = _
    rw [inline_words (by decide) (by decide) (by decide) hr]; rfl
  | fls =>
    show readInline (str "false" ++ rest) = _
    rw [inline_words (by decide) (by decide) (by decide) hr]; rfl
  | str s =>
    show readInline (quoted s ++ rest) = _
    exact readInline_dq s (by simpa [YamlOk] using hv) rest
  | num s =>
    show readInline (s ++ rest) = _
    exact readInline_number s (by simpa [YamlOk] using hv) hr
  | obj ms => cases ms with
    | nil =>
      show readInline (str "{}" ++ rest) = _
      rw [inline_words (by decide) (by decide) (by decide) hr]; rfl
    | cons => exact h.elim
  | arr ms => cases ms with
    | nil =>
      show readInline (str "[]" ++ rest) = _
      rw [inline_words (by decide) (by decide) (by decide) hr]; rfl
    | cons => exact h.elim

theorem print_succ_flat (v : Value) (h : Flat v) (i : Nat) : print (i + 1) v = 0x20 :: print 0 v := by
  obtain ⟨w, hw⟩ := print_flat v h
  rw [hw, hw]; rfl

theorem print_head (v : Value) (i : Nat) : ∃ c t, print (i + 1) v = c :: t ∧ (c = 0x20 ∨ c = 0x0A) := by
  cases v with
  | obj ms => cases ms with
    | nil => exact ⟨_, _, print_succ_flat _ (by trivial) i, Or.inl rfl⟩
    | cons m r => exact ⟨0x0A, _, by simp only [print]; rfl, Or.inr rfl⟩
  | arr ms => cases ms with
    | nil => exact ⟨_, _, print_succ_flat _ (by trivial) i, Or.inl rfl⟩
    | cons m r => exact ⟨0x0A, _, by simp only [print]; rfl, Or.inr rfl⟩
  | _ => exact ⟨_, _, print_succ_flat _ (by trivial) i, Or.inl rfl⟩

/-! ## keys -/

theorem alpha_iff (k : Bytes) : isAlphanumDash k = true ↔ ∀ c ∈ k, isAlpha c = true := by
  have : ∀ c : UInt8, (!(c < asc 'A' || c > asc 'z' || (c > asc 'Z' && c < asc 'a') || c = asc '-')) = isAlpha c :=
    forallU8 (by decide +kernel)
  simp only [isAlphanumDash, List.all_eq_true, this]

theorem readKey_key (k : Bytes) (hk : WellFormed k) (hn : k ∉ notAString) (rest : Bytes) :
    readKey (key k ++ rest) = some (k, 0x3A :: rest) := by
  unfold key
  split
  · rename_i h
    rw [alpha_iff] at h
    have hw := Verif.Json.takeWhile_stop (s := k) (rest := 0x3A :: rest) h (by intro c hc; simp at hc; subst hc; decide)
    rw [List.append_assoc, show [asc ':'] ++ rest = 0x3A :: rest from rfl]
    cases k with
    | nil => exact absurd (by simp [notAString]) hn
    | cons c r =>
      have hc : c ≠ 0x22 := by
        have : ∀ c, isAlpha c = true → c ≠ 0x22 := forallU8 (by decide +kernel)
        exact this c (h c (by simp))
      simp only [List.cons_append] at hw ⊢
      simp only [readKey, hc, if_false, hw.1, hw.2, hn]
  · have e : quoted k ++ [asc ':'] ++ rest = 0x22 :: (escape k ++ 0x22 :: (0x3A :: rest)) := by simp [quoted, asc]
    rw [e]
    simp [readKey, readDq_quoted k hk]

theorem key_head (k : Bytes) (hn : k ∉ notAString) : ∃ c t, key k = c :: t ∧ c ≠ 0x20 ∧ c ≠ 0x2D := by
  unfold key
  split
  · rename_i h
    rw [alpha_iff] at h
    cases k with
    | nil => exact absurd (by simp [notAString]) hn
    | cons c r =>
      have : ∀ c, isAlpha c = true → c ≠ 0x20 ∧ c ≠ 0x2D := forallU8 (by decide +kernel)
      exact ⟨c, r ++ [asc ':'], rfl, this c (h c (by simp))⟩
  · exact ⟨0x22, _, rfl, by decide⟩

/-! ## blocks -/

/-- The lines after the first member. -/
def tailM (i : Nat) (r : List (Bytes × Value)) : Bytes :=
  match r with
  | [] => []
  | m :: s => 0x0A :: printMembers i s.length (m :: s)

def tailE (i : Nat) (r : List Value) : Bytes :=
  match r with
  | [] => []
  | m :: s => 0x0A :: printElems i s.length (m :: s)

theorem printMembers_cons (i : Nat) (m : Bytes × Value) (r : List (Bytes × Value)) :
    printMembers i r.length (m :: r) = doIndent i ++ (printMember i m ++ tailM i r) := by
  cases r with
  | nil => simp [printMembers, tailM]
  | cons m' s => simp [printMembers, tailM, asc]

theorem printElems_cons (i : Nat) (v : Value) (r : List Value) :
    printElems i r.length (v :: r) = doIndent i ++ (0x2D :: (print (i + 1) v ++ tailE i r)) := by
  cases r with
  | nil => simp [printElems, tailE, asc]
  | cons m' s => simp [printElems, tailE, asc]

theorem tailM_cons (i : Nat) (m : Bytes × Value) (s : List (Bytes × Value)) :
    tailM i (m :: s) = 0x0A :: (doIndent i ++ (printMember i m ++ tailM i s)) := by
  rw [← printMembers_cons]; rfl

theorem tailE_cons (i : Nat) (m : Value) (s : List Value) :
    tailE i (m :: s) = 0x0A :: (doIndent i ++ (0x2D :: (print (i + 1) m ++ tailE i s))) := by
  rw [← printElems_cons]; rfl

mutual
/-- Recursion depth the reader needs. -/
def need : Value → Nat
  | .obj ms => 1 + needM ms
  | .arr es => 1 + needE es
  | _ => 1
termination_by structural v => v
def needM : List (Bytes × Value) → Nat
  | [] => 0
  | m :: r => 1 + needP m + needM r
termination_by structural v => v
def needP : Bytes × Value → Nat
  | (_, v) => need v
termination_by structural v => v
def needE : List Value → Nat
  | [] => 0
  | v :: r => 1 + need v + needE r
termination_by structural v => v
end

mutual
theorem need_le : (v : Value) → (i : Nat) → need v ≤ 4 * (print (i + 1) v).length
  | .null, i => by rw [print_succ_flat _ (by trivial)]; simp [need]; omega
  | .tru, i => by rw [print_succ_flat _ (by trivial)]; simp [need]; omega
  | .fls, i => by rw [print_succ_flat _ (by trivial)]; simp [need]; omega
  | .str _, i => by rw [print_succ_flat _ (by trivial)]; simp [need]; omega
  | .num _, i => by rw [print_succ_flat _ (by trivial)]; simp [need]; omega
  | .obj [], i => by rw [print_succ_flat _ (by trivial)]; simp [need, needM]; omega
  | .obj (m :: r), i => by
      have := needM_le (m :: r) (i + 1) r.length
      simp [need, print]; omega
  | .arr [], i => by rw [print_succ_flat _ (by trivial)]; simp [need, needE]; omega
  | .arr (m :: r), i => by
      have := needE_le (m :: r) (i + 1) r.length
      simp [need, print]; omega
termination_by structural v => v
theorem needM_le : (ms : List (Bytes × Value)) → (i c : Nat) → needM ms ≤ 4 * (printMembers i c ms).length
  | [], i, c => by simp [needM]
  | m :: r, i, c => by
      have h1 := needP_le m i
      have h2 := needM_le r i (c - 1)
      simp only [needM, printMembers, List.length_append]; omega
termination_by structural v => v
theorem needP_le : (m : Bytes × Value) → (i : Nat) → 1 + needP m ≤ 4 * (printMember i m).length
  | (k, v), i => by
      have := need_le v i
      simp only [needP, printMember, key, List.length_append, List.length_cons, List.length_nil]; omega
termination_by structural v => v
theorem needE_le : (es : List Value) → (i c : Nat) → needE es ≤ 4 * (printElems i c es).length
  | [], i, c => by simp [needE]
  | v :: r, i, c => by
      have h1 := need_le v i
      have h2 := needE_le r i (c - 1)
      simp only [needE, printElems, List.length_append, List.length_cons, List.length_nil]; omega
termination_by structural v => v
end

theorem isDash_key (k : Bytes) (hn : k ∉ notAString) (rest : Bytes) : isDash (key k ++ rest) = false := by
  obtain ⟨c, t, h, -, hc⟩ := key_head k hn
  rw [h]
  cases ht : t ++ rest with
  | nil => simp [isDash, ht]
  | cons d u => simp [isDash, ht, hc]

theorem isDash_entry (v : Value) (i : Nat) (rest : Bytes) : isDash (0x2D :: (print (i + 1) v ++ rest)) = true := by
  obtain ⟨c, t, h, hc⟩ := print_head v i
  rw [h]
  simpa [isDash] using hc

theorem notSpace_entry (x : Bytes) : NotSpace (0x2D :: x) := by simp [NotSpace]

theorem notSpace_key (k : Bytes) (hn : k ∉ notAString) (x : Bytes) : NotSpace (key k ++ x) := by
  obtain ⟨c, t, h, hc, -⟩ := key_head k hn
  rw [h]; simp [NotSpace, hc]

theorem printMember_eq (k : Bytes) (v : Value) (i : Nat) : printMember i (k, v) = key k ++ print (i + 1) v := by
  simp only [printMember]

theorem stop_tailM (i : Nat) (r : List (Bytes × Value)) (hr : YamlOkM r) (rest : Bytes) (h : Stop (2 * i) rest) :
    Stop (2 * i + 1) (tailM i r ++ rest) := by
  cases r with
  | nil => exact stop_mono h (by omega)
  | cons m s =>
    obtain ⟨k, v⟩ := m
    have hk : k ∉ notAString := by simp only [YamlOkM, YamlOkP] at hr; exact hr.1.2.1
    refine Or.inr ⟨2 * i, _, by omega, ?_, notSpace_key k hk (print (i + 1) v ++ (tailM i s ++ rest))⟩
    simp [tailM_cons, printMember_eq, doIndent, asc]

theorem stop_tailE (i : Nat) (r : List Value) (rest : Bytes) (h : Stop (2 * i) rest) :
    Stop (2 * i + 1) (tailE i r ++ rest) := by
  cases r with
  | nil => exact stop_mono h (by omega)
  | cons v s =>
    refine Or.inr ⟨2 * i, _, by omega, ?_, notSpace_entry (print (i + 1) v ++ (tailE i s ++ rest))⟩
    simp [tailE_cons, doIndent, asc]

theorem read_flat (v : Value) (h : Flat v) (hv : YamlOk v) (i n : Nat) (hn : 1 ≤ n) (rest : Bytes) (hs : Stop (2 * i + 1) rest) :
    readNode n (2 * i) (print (i + 1) v ++ rest) = some (v, rest) := by
  cases n with
  | zero => omega
  | succ n =>
    rw [print_succ_flat v h]
    have := readInline_flat v h hv rest (stop_head hs)
    simp [readNode, this]

mutual
theorem read_node : (v : Value) → YamlOk v → (i n : Nat) → need v ≤ n → (rest : Bytes) → Stop (2 * i + 1) rest →
    readNode n (2 * i) (print (i + 1) v ++ rest) = some (v, rest)
  | .null, hv, i, n, hn, rest, hs => read_flat _ (by trivial) hv i n (by simpa [need] using hn) rest hs
  | .tru, hv, i, n, hn, rest, hs => read_flat _ (by trivial) hv i n (by simpa [need] using hn) rest hs
  | .fls, hv, i, n, hn, rest, hs => read_flat _ (by trivial) hv i n (by simpa [need] using hn) rest hs
  | .str _, hv, i, n, hn, rest, hs => read_flat _ (by trivial) hv i n (by simpa [need] using hn) rest hs
  | .num _, hv, i, n, hn, rest, hs => read_flat _ (by trivial) hv i n (by simpa [need] using hn) rest hs
  | .obj [], hv, i, n, hn, rest, hs => read_flat _ (by trivial) hv i n (by simp [need, needM] at hn; omega) rest hs
  | .arr [], hv, i, n, hn, rest, hs => read_flat _ (by trivial) hv i n (by simp [need, needE] at hn; omega) rest hs
  | .obj (m :: r), hv, i, n, hn, rest, hs => by
      have ih := read_map (m :: r)
      simp only [YamlOk] at hv
      simp only [need] at hn
      cases n with
      | zero => omega
      | succ n =>
        have ih := ih m r rfl hv (i + 1) n (by omega) rest (stop_mono hs (by omega))
        obtain ⟨k, v⟩ := m
        have hk : k ∉ notAString := by simp only [YamlOkM, YamlOkP] at hv; exact hv.1.2.1
        have e : print (i + 1) (.obj ((k, v) :: r)) ++ rest
            = 0x0A :: (List.replicate (2 * (i + 1)) 0x20 ++ (key k ++ (print (i + 2) v ++ (tailM (i + 1) r ++ rest)))) := by
          simp [print, printMembers_cons, doIndent, asc, printMember_eq]
        rw [e]
        simp only [readNode, spaces_rep _ _ (notSpace_key k hk _), isDash_key k hk]
        rw [printMember_eq, List.append_assoc] at ih
        rw [if_neg (by decide), if_pos True.intro, if_pos (by omega), if_neg (by simp), ih]
        rfl
  | .arr (v :: r), hv, i, n, hn, rest, hs => by
      have ih := read_seq (v :: r)
      simp only [YamlOk] at hv
      simp only [need] at hn
      cases n with
      | zero => omega
      | succ n =>
        have ih := ih v r rfl hv (i + 1) n (by omega) rest (stop_mono hs (by omega))
        have e : print (i + 1) (.arr (v :: r)) ++ rest
            = 0x0A :: (List.replicate (2 * (i + 1)) 0x20 ++ (0x2D :: (print (i + 2) v ++ (tailE (i + 1) r ++ rest)))) := by
          simp [print, printElems_cons, doIndent, asc]
        rw [e]
        simp only [readNode, spaces_rep _ _ (notSpace_entry _), isDash_entry]
        rw [if_neg (by decide), if_pos True.intro, if_pos (by omega), if_pos True.intro, ih]
        rfl
termination_by structural v => v
theorem read_map : (ms : List (Bytes × Value)) → ∀ m r, ms = m :: r → YamlOkM ms → (i n : Nat) → needM ms ≤ n →
    (rest : Bytes) → Stop (2 * i) rest → readMap n (2 * i) (printMember i m ++ (tailM i r ++ rest)) = some (ms, rest)
  | [], m, r, e => by simp at e
  | m' :: r', m, r, e => by
      have ih1 := read_member m'
      have ih2 := read_map r'
      injection e with e1 e2
      subst e1 e2
      intro hv i n hn rest hs
      obtain ⟨k, v⟩ := m'
      simp only [YamlOkM, YamlOkP] at hv
      simp only [needM, needP] at hn
      cases n with
      | zero => omega
      | succ n =>
        have h1 := ih1 k v rfl hv.1.2.2 i n (by omega) (tailM i r' ++ rest) (stop_tailM i r' hv.2 rest hs)
        have hk := readKey_key k hv.1.1 hv.1.2.1 (print (i + 1) v ++ (tailM i r' ++ rest))
        simp only [readMap, printMember_eq, List.append_assoc, hk, ne_eq, not_true_eq_false, if_false, h1]
        cases r' with
        | nil =>
          rcases hs with hs | ⟨j, t, hj, ht, hsp⟩
          · subst hs; simp [tailM]
          · subst ht
            simp [tailM, spaces_rep _ _ hsp, hj]
        | cons m2 s =>
          have h2 := ih2 m2 s rfl hv.2 i n (by omega) rest hs
          have hk2 : ∃ k2 v2, m2 = (k2, v2) ∧ k2 ∉ notAString := by
            obtain ⟨k2, v2⟩ := m2
            have := hv.2
            simp only [YamlOkM, YamlOkP] at this
            exact ⟨k2, v2, rfl, this.1.2.1⟩
          obtain ⟨k2, v2, rfl, hk2⟩ := hk2
          have e : tailM i ((k2, v2) :: s) ++ rest
              = 0x0A :: (List.replicate (2 * i) 0x20 ++ (printMember i (k2, v2) ++ (tailM i s ++ rest))) := by
            simp [tailM_cons, doIndent, asc]
          rw [e]
          have hsp : NotSpace (printMember i (k2, v2) ++ (tailM i s ++ rest)) := by
            rw [printMember_eq, List.append_assoc]; exact notSpace_key k2 hk2 _
          simp [spaces_rep _ _ hsp, h2]
termination_by structural v => v
theorem read_member : (m : Bytes × Value) → ∀ k v, m = (k, v) → YamlOk v → (i n : Nat) → need v ≤ n → (rest : Bytes) →
    Stop (2 * i + 1) rest → readNode n (2 * i) (print (i + 1) v ++ rest) = some (v, rest)
  | (k', v'), k, v, e => by
      have ih := read_node v'
      injection e with e1 e2
      subst e2
      exact ih
termination_by structural v => v
theorem read_seq : (es : List Value) → ∀ v r, es = v :: r → YamlOkE es → (i n : Nat) → needE es ≤ n →
    (rest : Bytes) → Stop (2 * i) rest → readSeq n (2 * i) (0x2D :: (print (i + 1) v ++ (tailE i r ++ rest))) = some (es, rest)
  | [], m, r, e => by simp at e
  | v' :: r', m, r, e => by
      have ih1 := read_node v'
      have ih2 := read_seq r'
      injection e with e1 e2
      subst e1 e2
      intro hv i n hn rest hs
      simp only [YamlOkE] at hv
      simp only [needE] at hn
      cases n with
      | zero => omega
      | succ n =>
        have h1 := ih1 hv.1 i n (by omega) (tailE i r' ++ rest) (stop_tailE i r' rest hs)
        simp only [readSeq, isDash_entry, if_true, List.tail_cons, h1]
        cases r' with
        | nil =>
          rcases hs with hs | ⟨j, t, hj, ht, hsp⟩
          · subst hs; simp [tailE]
          · subst ht
            simp [tailE, spaces_rep _ _ hsp, hj]
        | cons v2 s =>
          have h2 := ih2 v2 s rfl hv.2 i n (by omega) rest hs
          have e : tailE i (v2 :: s) ++ rest
              = 0x0A :: (List.replicate (2 * i) 0x20 ++ (0x2D :: (print (i + 1) v2 ++ (tailE i s ++ rest)))) := by
            simp [tailE_cons, doIndent, asc]
          rw [e]
          simp [spaces_rep _ _ (notSpace_entry _), h2]
termination_by structural v => v
end

/-! ## documents -/

theorem readInline_map (k : Bytes) (hk : WellFormed k) (hn : k ∉ notAString) (X : Bytes) :
    ∀ v, readInline (key k ++ X) ≠ some (v, []) := by
  intro v
  unfold key
  split
  · rename_i h
    rw [alpha_iff] at h
    cases k with
    | nil => exact absurd (by simp [notAString]) hn
    | cons c r =>
      have h1 : ∀ c, isAlpha c = true → c ≠ 0x22 ∧ (c ≠ 0x0A : Bool) = true := forallU8 (by decide +kernel)
      have hc := (h1 c (h c (by simp))).1
      -- the first line contains a colon
      have hw : 0x3A ∈ (c :: (r ++ 0x3A :: X)).takeWhile (· ≠ 0x0A) := by
        have e : c :: (r ++ 0x3A :: X) = (c :: r) ++ 0x3A :: X := rfl
        have : ∀ l : Bytes, (∀ d ∈ l, isAlpha d = true) → 0x3A ∈ (l ++ 0x3A :: X).takeWhile (· ≠ 0x0A) := by
          intro l hl
          induction l with
          | nil => simp
          | cons d l ih =>
            have hd := (h1 d (hl d (by simp))).2
            rw [List.cons_append, List.takeWhile_cons, if_pos hd]
            exact List.mem_cons_of_mem _ (ih (fun x hx => hl x (by simp [hx])))
        rw [e]; exact this _ h
      have e2 : c :: r ++ [asc ':'] ++ X = c :: (r ++ 0x3A :: X) := by simp [asc]
      rw [e2]
      simp only [readInline, hc, if_false]
      have ne : ∀ w : Bytes, 0x3A ∉ w → (c :: (r ++ 0x3A :: X)).takeWhile (· ≠ 0x0A) ≠ w := by
        intro w hw' e; exact hw' (e ▸ hw)
      have nj : ¬ JsonNumber ((c :: (r ++ 0x3A :: X)).takeWhile (· ≠ 0x0A)) := by
        intro hj
        have := Verif.Json.numChar_of_number hj _ hw
        exact absurd this (by decide)
      rw [if_neg (ne _ (by decide)), if_neg (ne _ (by decide)), if_neg (ne _ (by decide)), if_neg (ne _ (by decide)),
        if_neg (ne _ (by decide)), if_neg nj]
      simp
  · have e : quoted k ++ [asc ':'] ++ X = 0x22 :: (escape k ++ 0x22 :: (0x3A :: X)) := by simp [quoted, asc]
    rw [e]
    simp [readInline, readDq_quoted k hk]

theorem readInline_seq (v : Value) (X : Bytes) : readInline (0x2D :: (print 1 v ++ X)) = none := by
  obtain ⟨c, t, h, hc⟩ := print_head v 0
  rw [h]
  have hw : ((0x2D :: (c :: t ++ X)).takeWhile (· ≠ (0x0A : UInt8)) = [0x2D]) ∨
      ∃ u, (0x2D :: (c :: t ++ X)).takeWhile (· ≠ (0x0A : UInt8)) = 0x2D :: 0x20 :: u := by
    rcases hc with rfl | rfl
    · right; exact ⟨(t ++ X).takeWhile (· ≠ 0x0A), by simp⟩
    · left; simp
  rw [readInline, if_neg (by decide)]
  rcases hw with e | ⟨u, e⟩ <;> rw [e]
  · simp only
    rw [if_neg (by decide), if_neg (by decide), if_neg (by decide), if_neg (by decide), if_neg (by decide), if_neg (by decide)]
  · have ne : ∀ w : Bytes, w.head? ≠ some 0x2D → 0x2D :: 0x20 :: u ≠ w := by
      intro w hw' e; apply hw'; rw [← e]; rfl
    have nj : ¬ JsonNumber (0x2D :: 0x20 :: u) := by
      intro hj
      have := Verif.Json.numChar_of_number hj 0x20 (by simp)
      exact absurd this (by decide)
    simp only
    rw [if_neg (ne _ (by decide)), if_neg (ne _ (by decide)), if_neg (ne _ (by decide)), if_neg (ne _ (by decide)),
      if_neg (ne _ (by decide)), if_neg nj]

theorem readYaml_print (v : Value) (hv : YamlOk v) : readYaml (serializeYaml v) = some v := by
  have hflat : Flat v → readYaml (serializeYaml v) = some v := by
    intro hf
    have := readInline_flat v hf hv [] (by intro c hc; simp at hc)
    rw [List.append_nil] at this
    simp [readYaml, serializeYaml, this]
  cases v with
  | obj ms => cases ms with
    | nil => exact hflat trivial
    | cons m r =>
      obtain ⟨k, v⟩ := m
      simp only [YamlOk] at hv
      have hv' := hv
      simp only [YamlOkM, YamlOkP] at hv'
      have e : serializeYaml (.obj ((k, v) :: r)) = key k ++ (print 1 v ++ tailM 0 r) := by
        simp [serializeYaml, print, printMembers_cons, doIndent, printMember_eq]
      have hn := needM_le ((k, v) :: r) 0 r.length
      have hl : printMembers 0 r.length ((k, v) :: r) = serializeYaml (.obj ((k, v) :: r)) := by simp [serializeYaml, print]
      rw [hl] at hn
      have h1 := readInline_map k hv'.1.1 hv'.1.2.1 (print 1 v ++ tailM 0 r)
      have h2 := read_map ((k, v) :: r) (k, v) r rfl hv 0 (4 * (serializeYaml (.obj ((k, v) :: r))).length) hn [] (Or.inl rfl)
      rw [printMember_eq, List.append_nil, List.append_assoc] at h2
      rw [← e] at h1
      have h3 := isDash_key k hv'.1.2.1 (print 1 v ++ tailM 0 r)
      rw [← e] at h3
      have h2' : readMap (4 * (serializeYaml (.obj ((k, v) :: r))).length) 0 (serializeYaml (.obj ((k, v) :: r))) = some ((k, v) :: r, []) := by
        rw [← e] at h2; exact h2
      unfold readYaml
      split
      · rename_i v' hh; exact absurd hh (h1 v')
      · rw [h3, if_neg (by simp), h2']
  | arr es => cases es with
    | nil => exact hflat trivial
    | cons v r =>
      simp only [YamlOk] at hv
      have e : serializeYaml (.arr (v :: r)) = 0x2D :: (print 1 v ++ tailE 0 r) := by
        simp [serializeYaml, print, printElems_cons, doIndent]
      have hn := needE_le (v :: r) 0 r.length
      have hl : printElems 0 r.length (v :: r) = serializeYaml (.arr (v :: r)) := by simp [serializeYaml, print]
      rw [hl] at hn
      have h1 := readInline_seq v (tailE 0 r)
      have h2 := read_seq (v :: r) v r rfl hv 0 (4 * (serializeYaml (.arr (v :: r))).length) hn [] (Or.inl rfl)
      rw [List.append_nil] at h2
      rw [← e] at h1
      have h3 := isDash_entry v 0 (tailE 0 r)
      have h3' : isDash (serializeYaml (.arr (v :: r))) = true := by rw [e]; exact h3
      have h2' : readSeq (4 * (serializeYaml (.arr (v :: r))).length) 0 (serializeYaml (.arr (v :: r))) = some (v :: r, []) := by
        rw [← e] at h2; exact h2
      unfold readYaml
      split
      · rename_i v' hh; rw [h1] at hh; simp at hh
      · rw [h3', if_pos rfl, h2']
  | _ => exact hflat trivial

end Verif.Yaml
