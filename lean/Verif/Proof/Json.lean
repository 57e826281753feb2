import Verif.Model.Json
import Verif.Spec.Json
namespace Verif.Json
open Verif Verif.So Verif.Spec Verif.Spec.Json

/-! ## strings -/

theorem hex4_ctl : ∀ b : UInt8, b ≤ 0x1f →
    hex4 (hexLower (b.toNat / 4096 % 16)) (hexLower (b.toNat / 256 % 16)) (hexLower (b.toNat / 16 % 16))
      (hexLower (b.toNat % 16)) = some b.toNat := forallU8 (by decide +kernel)

theorem utf8_ctl : ∀ b : UInt8, b ≤ 0x1f → utf8 b.toNat = [b] := forallU8 (by decide +kernel)

theorem readString_escapeByte (b : UInt8) (X : Bytes) :
    readString none (escapeByte b ++ X) = (readString none X).map fun (s, t) => (b :: s, t) := by
  unfold escapeByte
  split
  · rename_i h; subst h; simp [asc, readString, simpleEscape]
  split
  · rename_i h; subst h; simp [asc, readString, simpleEscape]
  split
  · rename_i h; subst h; simp [asc, readString, simpleEscape]
  split
  · rename_i h; subst h; simp [asc, readString, simpleEscape]
  split
  · rename_i h; subst h; simp [asc, readString, simpleEscape]
  split
  · rename_i h; subst h; simp [asc, readString, simpleEscape]
  split
  · rename_i h; subst h; simp [asc, readString, simpleEscape]
  split
  · rename_i h1 h2 _ _ _ _ _ h
    have h1 : b ≠ 0x22 := h1
    have h2 : b ≠ 0x5C := h2
    have h3 : ¬ b < 0x20 := by
      revert h; revert b; exact fun b _ _ _ _ _ _ _ _ _ => by
        revert b; exact forallU8 (by decide +kernel)
    rw [List.singleton_append]
    rw [readString.eq_5]
    · simp [h3, h2]
    · simpa using h1
    · intro a b' c d r hb; exact absurd hb h2
    · intro e r hb; exact absurd hb h2
  · rename_i h
    have h3 : b ≤ 0x1f := UInt8.not_lt.1 h
    have hs : ∀ b : UInt8, b ≤ 0x1f → ¬ (0xD800 ≤ b.toNat ∧ b.toNat ≤ 0xDBFF) ∧ ¬ (0xDC00 ≤ b.toNat ∧ b.toNat ≤ 0xDFFF) :=
      forallU8 (by decide +kernel)
    simp only [jsonUtfChar, List.cons_append, List.nil_append]
    show readString none (0x5C :: 0x75 :: _) = _
    rw [readString.eq_3]
    simp only [hex4_ctl b h3, (hs b h3).1, (hs b h3).2, if_false, utf8_ctl b h3, List.singleton_append]

theorem readString_escape (s X : Bytes) :
    readString none (escape s ++ 0x22 :: X) = some (s, X) := by
  induction s with
  | nil => simp [escape, readString]
  | cons b r ih =>
    have : escape (b :: r) = escapeByte b ++ escape r := by simp [escape]
    rw [this, List.append_assoc, readString_escapeByte, ih]; rfl

/-! ## white space -/

@[simp] theorem skipWs_nl (s : Bytes) : skipWs (0x0A :: s) = skipWs s := by simp [skipWs, isWs]
@[simp] theorem skipWs_sp (s : Bytes) : skipWs (0x20 :: s) = skipWs s := by simp [skipWs, isWs]

theorem skipWs_spaces (n : Nat) (s : Bytes) : skipWs (List.replicate n 0x20 ++ s) = skipWs s := by
  induction n with
  | zero => rfl
  | succ n ih => rw [List.replicate_succ, List.cons_append, skipWs_sp, ih]

theorem skipWs_break (n : Nat) (s : Bytes) : skipWs (breakIndent n ++ s) = skipWs s := by
  show skipWs (0x0A :: (List.replicate (2*n) 0x20 ++ s)) = _
  rw [skipWs_nl, skipWs_spaces]

theorem skipWs_nonws {c : UInt8} (h : isWs c = false) (s : Bytes) : skipWs (c :: s) = c :: s := by
  simp [skipWs, h]

/-- Optional line break, as printed between tokens. -/
theorem skipWs_opt (p : Bool) (n : Nat) (s : Bytes) :
    skipWs ((if p then [] else breakIndent n) ++ s) = skipWs s := by
  cases p
  · exact skipWs_break n s
  · rfl

/-! ## numbers -/

theorem numChar_of_number {s : Bytes} (h : JsonNumber s) : ∀ c ∈ s, isNumChar c = true := by
  have hd : ∀ c : UInt8, (0x30 ≤ c ∧ c ≤ 0x39) → isNumChar c = true := forallU8 (by decide +kernel)
  obtain ⟨sg, i, f, e, rfl, hsg, hi, hf, he⟩ := h
  have hdig : ∀ x, Digits x → ∀ c ∈ x, isNumChar c = true := fun x hx c hc => hd c (hx.2 c hc)
  intro c hc
  simp only [List.mem_append] at hc
  rcases hc with ((hc | hc) | hc) | hc
  · rcases hsg with rfl | rfl
    · simp at hc
    · simp at hc; subst hc; decide
  · rcases hi with rfl | hi
    · simp at hc; subst hc; decide
    · exact hdig _ hi.1 c hc
  · rcases hf with rfl | ⟨d, rfl, hd'⟩
    · simp at hc
    · rcases List.mem_cons.1 hc with rfl | hc
      · decide
      · exact hdig _ hd' c hc
  · rcases he with rfl | ⟨e0, s0, d, rfl, he0, hs0, hd'⟩
    · simp at hc
    · rcases List.mem_cons.1 hc with rfl | hc
      · rcases he0 with rfl | rfl <;> decide
      · rcases List.mem_append.1 hc with hc | hc
        · rcases hs0 with rfl | rfl | rfl
          · simp at hc
          · simp at hc; subst hc; decide
          · simp at hc; subst hc; decide
        · exact hdig _ hd' c hc

/-- Whatever follows a value in the printed text does not continue a number. -/
def NumStop (rest : Bytes) : Prop := ∀ c, rest.head? = some c → isNumChar c = false

theorem takeWhile_stop {p : UInt8 → Bool} {s rest : Bytes} (h : ∀ c ∈ s, p c = true)
    (hr : ∀ c, rest.head? = some c → p c = false) :
    (s ++ rest).takeWhile p = s ∧ (s ++ rest).dropWhile p = rest := by
  induction s with
  | nil =>
    cases rest with
    | nil => simp
    | cons c r => simp [hr c rfl]
  | cons c s ih =>
    have := ih (fun d hd => h d (by simp [hd]))
    simp [h c (by simp), this]

theorem number_head {s : Bytes} (h : JsonNumber s) : ∃ c r, s = c :: r ∧ (c = 0x2D ∨ IsDigit c) := by
  obtain ⟨sg, i, f, e, rfl, hsg, hi, -, -⟩ := h
  have : ∃ c r, i = c :: r ∧ IsDigit c := by
    rcases hi with rfl | ⟨⟨hn, hd⟩, -⟩
    · exact ⟨0x30, [], rfl, by simp [IsDigit]⟩
    · cases i with
      | nil => exact absurd rfl hn
      | cons a i => exact ⟨a, i, rfl, hd a (by simp)⟩
  obtain ⟨c, r, rfl, hc⟩ := this
  rcases hsg with rfl | rfl
  · exact ⟨c, _, rfl, Or.inr hc⟩
  · exact ⟨0x2D, _, rfl, Or.inl rfl⟩

theorem readValue_number {s rest : Bytes} (h : JsonNumber s) (hr : NumStop rest) (n : Nat) :
    readValue (n+1) (s ++ rest) = some (.num s, rest) := by
  obtain ⟨c, r, rfl, hc⟩ := number_head h
  have hb : ∀ c : UInt8, (c = 0x2D ∨ (0x30 ≤ c ∧ c ≤ 0x39)) →
      isWs c = false ∧ c ≠ 0x7B ∧ c ≠ 0x5B ∧ c ≠ 0x22 ∧ c ≠ 0x6E ∧ c ≠ 0x74 ∧ c ≠ 0x66 :=
    forallU8 (by decide +kernel)
  obtain ⟨h0, h1, h2, h3, h4, h5, h6⟩ := hb c hc
  have ht := takeWhile_stop (rest := rest) (numChar_of_number h) hr
  rw [List.cons_append] at ht ⊢
  simp only [readValue, skipWs_nonws h0, h1, h2, h3, h4, h5, h6, if_false, ht.1, ht.2, h, if_true]

/-! ## fuel -/

mutual
/-- Recursion depth the reader needs for a value. -/
def need : Value → Nat
  | .obj ms => 1 + needM ms
  | .arr es => 1 + needE es
  | _ => 1
termination_by structural v => v
def needM : List (Bytes × Value) → Nat
  | [] => 0
  | m :: r => 1 + needP m + needM r
termination_by structural v => v
def needP : Bytes × Value → Nat
  | (_, v) => need v
termination_by structural v => v
def needE : List Value → Nat
  | [] => 0
  | v :: r => 1 + need v + needE r
termination_by structural v => v
end

mutual
theorem need_le (p : Bool) : (v : Value) → NumbersOk v → (i : Nat) → need v + 1 ≤ 2 * (print p i v).length
  | .null, _, i => by simp [need, print, str]
  | .tru, _, i => by simp [need, print, str]
  | .fls, _, i => by simp [need, print, str]
  | .str s, _, i => by simp [need, print, quoted]; omega
  | .num s, h, i => by
      obtain ⟨c, r, rfl, -⟩ := number_head (by simpa [NumbersOk] using h)
      simp [need, print]; omega
  | .obj ms, h, i => by
      have := needM_le p ms (by simpa [NumbersOk] using h) i (ms.length - 1)
      simp only [need, print, List.length_append, List.length_cons, List.length_nil]; omega
  | .arr es, h, i => by
      have := needE_le p es (by simpa [NumbersOk] using h) i (es.length - 1)
      simp only [need, print, List.length_append, List.length_cons, List.length_nil]; omega
termination_by structural v => v
theorem needM_le (p : Bool) : (ms : List (Bytes × Value)) → NumbersOkM ms → (i c : Nat) →
    needM ms ≤ 2 * (printMembers p i c ms).length
  | [], _, i, c => by simp [needM]
  | m :: r, h, i, c => by
      have h' : NumbersOkP m ∧ NumbersOkM r := by simpa [NumbersOkM] using h
      have h1 := needP_le p m h'.1 i
      have h2 := needM_le p r h'.2 i (c - 1)
      simp only [needM, printMembers, List.length_append]; omega
termination_by structural v => v
theorem needP_le (p : Bool) : (m : Bytes × Value) → NumbersOkP m → (i : Nat) →
    needP m + 1 ≤ 2 * (printMember p i m).length
  | (k, v), h, i => by
      have h1 := need_le p v (by simpa [NumbersOkP] using h) (i + 1)
      simp only [needP, printMember, quoted, List.length_append, List.length_cons, List.length_nil]; omega
termination_by structural v => v
theorem needE_le (p : Bool) : (es : List Value) → NumbersOkE es → (i c : Nat) →
    needE es ≤ 2 * (printElems p i c es).length
  | [], _, i, c => by simp [needE]
  | v :: r, h, i, c => by
      have h' : NumbersOk v ∧ NumbersOkE r := by simpa [NumbersOkE] using h
      have h1 := need_le p v h'.1 (i + 1)
      have h2 := needE_le p r h'.2 i (c - 1)
      simp only [needE, printElems, List.length_append]; omega
termination_by structural v => v
end

/-! ## round trip -/

/-- The first octet of a printed value is not white space. -/
theorem print_head (p : Bool) (v : Value) (h : NumbersOk v) (i : Nat) :
    ∃ c r, print p i v = c :: r ∧ isWs c = false ∧ c ≠ 0x5D ∧ c ≠ 0x7D := by
  cases v with
  | null => exact ⟨_, _, rfl, by decide⟩
  | tru => exact ⟨_, _, rfl, by decide⟩
  | fls => exact ⟨_, _, rfl, by decide⟩
  | str s => exact ⟨_, _, rfl, by decide⟩
  | num s =>
    obtain ⟨c, r, rfl, hc⟩ := number_head (by simpa [NumbersOk] using h)
    have hb : ∀ c : UInt8, (c = 0x2D ∨ (0x30 ≤ c ∧ c ≤ 0x39)) → isWs c = false ∧ c ≠ 0x5D ∧ c ≠ 0x7D :=
      forallU8 (by decide +kernel)
    exact ⟨c, r, rfl, hb c hc⟩
  | obj ms => exact ⟨_, _, rfl, by decide⟩
  | arr es => exact ⟨_, _, rfl, by decide⟩

theorem readValue_skip (n : Nat) {s t : Bytes} (h : skipWs s = skipWs t) : readValue n s = readValue n t := by
  cases n with
  | zero => simp [readValue]
  | succ n => simp only [readValue, h]

theorem readMembers_skip (n : Nat) {s t : Bytes} (h : skipWs s = skipWs t) : readMembers n s = readMembers n t := by
  cases n with
  | zero => simp [readMembers]
  | succ n => simp only [readMembers, h]

theorem readElems_skip (n : Nat) {s t : Bytes} (h : skipWs s = skipWs t) : readElems n s = readElems n t := by
  cases n with
  | zero => simp [readElems]
  | succ n => simp only [readElems, readValue_skip n h]

theorem numStop_break (i : Nat) (s : Bytes) : NumStop (breakIndent i ++ s) := by
  intro c hc
  have : c = 0x0A := by
    simp [breakIndent, asc] at hc; exact hc.symm
  subst this; decide

theorem numStop_cons {c : UInt8} (h : isNumChar c = false) (s : Bytes) : NumStop (c :: s) := by
  intro d hd; simp at hd; subst hd; exact h

theorem numStop_opt (b : Bool) (i : Nat) {c : UInt8} (h : isNumChar c = false) (s : Bytes) :
    NumStop ((if b then [] else breakIndent i) ++ c :: s) := by
  cases b
  · exact numStop_break i _
  · exact numStop_cons h s

mutual
theorem read_print (p : Bool) : (v : Value) → NumbersOk v → (i n : Nat) → need v ≤ n → (rest : Bytes) → NumStop rest →
    readValue n (print p i v ++ rest) = some (v, rest)
  | .null, _, i, n, hn, rest, _ => by
      cases n with
      | zero => simp [need] at hn
      | succ n => simp [print, str, asc, readValue, skipWs, isWs, expect]
  | .tru, _, i, n, hn, rest, _ => by
      cases n with
      | zero => simp [need] at hn
      | succ n => simp [print, str, asc, readValue, skipWs, isWs, expect]
  | .fls, _, i, n, hn, rest, _ => by
      cases n with
      | zero => simp [need] at hn
      | succ n => simp [print, str, asc, readValue, skipWs, isWs, expect]
  | .str s, _, i, n, hn, rest, _ => by
      cases n with
      | zero => simp [need] at hn
      | succ n =>
        have := readString_escape s rest
        simp [print, quoted, asc, readValue, skipWs, isWs, this]
  | .num s, h, i, n, hn, rest, hr => by
      cases n with
      | zero => simp [need] at hn
      | succ n => simp only [print]; exact readValue_number (by simpa [NumbersOk] using h) hr n
  | .obj ms, h, i, n, hn, rest, hr => by
      cases n with
      | zero => simp [need] at hn
      | succ n =>
        have h' : NumbersOkM ms := by simpa [NumbersOk] using h
        cases ms with
        | nil => simp [print, printMembers, asc, readValue, skipWs, isWs]
        | cons m r =>
          have ih := read_members p (m :: r) h' (by simp) i n (by simp [need] at hn; omega) rest
          have hh : ∃ t, skipWs (printMembers p i ((m :: r).length - 1) (m :: r) ++ ((if p then [] else breakIndent i) ++ 0x7D :: rest))
              = 0x22 :: t := by
            obtain ⟨k, v⟩ := m
            rw [printMembers, List.append_assoc, List.append_assoc, List.append_assoc, skipWs_opt, printMember, quoted]
            exact ⟨_, skipWs_nonws (by decide) _⟩
          obtain ⟨t, ht⟩ := hh
          have hp : print p i (.obj (m :: r)) ++ rest
              = 0x7B :: (printMembers p i ((m :: r).length - 1) (m :: r) ++ ((if p then [] else breakIndent i) ++ 0x7D :: rest)) := by
            simp [print, asc]
          rw [hp]
          simp only [readValue, skipWs_nonws (show isWs 0x7B = false by decide), if_true, ht]
          rw [← readMembers_skip n (s := 0x22 :: t) (by rw [ht]; exact skipWs_nonws (by decide) _)] at ih
          simp [ih]
  | .arr es, h, i, n, hn, rest, hr => by
      cases n with
      | zero => simp [need] at hn
      | succ n =>
        have h' : NumbersOkE es := by simpa [NumbersOk] using h
        cases es with
        | nil => simp [print, printElems, asc, readValue, skipWs, isWs]
        | cons v r =>
          have ih := read_elems p (v :: r) h' (by simp) i n (by simp [need] at hn; omega) rest
          have hh : ∃ c t, skipWs (printElems p i ((v :: r).length - 1) (v :: r) ++ ((if p then [] else breakIndent i) ++ 0x5D :: rest))
              = c :: t ∧ isWs c = false ∧ c ≠ 0x5D := by
            obtain ⟨c, t, hc, hw, hc', -⟩ := print_head p v (by simp [NumbersOkE] at h'; exact h'.1) (i + 1)
            rw [printElems, List.append_assoc, List.append_assoc, List.append_assoc, skipWs_opt, hc]
            exact ⟨c, _, skipWs_nonws hw _, hw, hc'⟩
          obtain ⟨c, t, ht, hw, hc'⟩ := hh
          have hp : print p i (.arr (v :: r)) ++ rest
              = 0x5B :: (printElems p i ((v :: r).length - 1) (v :: r) ++ ((if p then [] else breakIndent i) ++ 0x5D :: rest)) := by
            simp [print, asc]
          rw [hp]
          have e1 : (0x5B : UInt8) ≠ 0x7B := by decide
          simp only [readValue, skipWs_nonws (show isWs 0x5B = false by decide), if_true, e1, if_false, ht]
          rw [← readElems_skip n (s := c :: t) (by rw [ht]; exact skipWs_nonws hw _)] at ih
          split
          · rename_i heq; simp at heq; exact absurd heq.1 hc'
          · simp [ih]
termination_by structural v => v
theorem read_members (p : Bool) : (ms : List (Bytes × Value)) → NumbersOkM ms → ms ≠ [] → (i n : Nat) → needM ms ≤ n →
    (rest : Bytes) →
    readMembers n (printMembers p i (ms.length - 1) ms ++ ((if p then [] else breakIndent i) ++ 0x7D :: rest)) = some (ms, rest)
  | [], _, hne, i, n, hn, rest => absurd rfl hne
  | m :: r, h, _, i, n, hn, rest => by
      cases n with
      | zero => simp [needM] at hn
      | succ n =>
        have h' : NumbersOkP m ∧ NumbersOkM r := by simpa [NumbersOkM] using h
        simp only [needM] at hn
        cases r with
        | nil =>
          have ihm := read_member p m h'.1 i n (by omega) ((if p then [] else breakIndent i) ++ 0x7D :: rest) (numStop_opt p i (by decide) _)
          have hp : printMembers p i ([m].length - 1) [m] ++ ((if p then [] else breakIndent i) ++ 0x7D :: rest)
            = (if p then [] else breakIndent (i+1)) ++ (printMember p i m ++ ((if p then [] else breakIndent i) ++ 0x7D :: rest)) := by
            simp [printMembers]
          rw [hp, readMembers_skip _ (skipWs_opt p (i+1) _)]
          obtain ⟨X, Y, hq, hs, hX, hv⟩ := ihm
          rw [readMembers, hq, skipWs_nonws (show isWs 0x22 = false by decide)]
          simp only [hs, hX, hv, skipWs_opt, skipWs_nonws (show isWs 0x7D = false by decide)]
        | cons m2 r2 =>
          have ih := read_members p (m2 :: r2) h'.2 (by simp) i n (by simp [needM] at hn ⊢; omega) rest
          have ihm := read_member p m h'.1 i n (by omega)
            (0x2C :: (printMembers p i ((m2 :: r2).length - 1) (m2 :: r2) ++ ((if p then [] else breakIndent i) ++ 0x7D :: rest)))
            (numStop_cons (by decide) _)
          have hp : printMembers p i ((m :: m2 :: r2).length - 1) (m :: m2 :: r2) ++ ((if p then [] else breakIndent i) ++ 0x7D :: rest)
            = (if p then [] else breakIndent (i+1)) ++ (printMember p i m ++
               (0x2C :: (printMembers p i ((m2 :: r2).length - 1) (m2 :: r2) ++ ((if p then [] else breakIndent i) ++ 0x7D :: rest)))) := by
            rw [printMembers]; simp [asc]
          rw [hp, readMembers_skip _ (skipWs_opt p (i+1) _)]
          obtain ⟨X, Y, hq, hs, hX, hv⟩ := ihm
          rw [readMembers, hq, skipWs_nonws (show isWs 0x22 = false by decide)]
          simp only [hs, hX, hv, skipWs_nonws (show isWs 0x2C = false by decide), ih, Option.map_some]
termination_by structural v => v
theorem read_member (p : Bool) : (m : Bytes × Value) → NumbersOkP m → (i n : Nat) → needP m ≤ n → (rest : Bytes) → NumStop rest →
    ∃ X Y, printMember p i m ++ rest = 0x22 :: X ∧ readString none X = some (m.1, 0x3A :: Y) ∧
      skipWs (0x3A :: Y) = 0x3A :: Y ∧ readValue n Y = some (m.2, rest)
  | (k, v), h, i, n, hn, rest, hr => by
      have ih := read_print p v (by simpa [NumbersOkP] using h) (i + 1) n (by simpa [needP] using hn) rest hr
      refine ⟨escape k ++ 0x22 :: 0x3A :: ((if p then [] else [0x20]) ++ (print p (i+1) v ++ rest)),
        (if p then [] else [0x20]) ++ (print p (i+1) v ++ rest), ?_, readString_escape _ _, skipWs_nonws (by decide) _, ?_⟩
      · simp [printMember, quoted, asc]
      · rw [readValue_skip n (t := print p (i+1) v ++ rest), ih]
        cases p
        · exact skipWs_sp _
        · rfl
termination_by structural v => v
theorem read_elems (p : Bool) : (es : List Value) → NumbersOkE es → es ≠ [] → (i n : Nat) → needE es ≤ n →
    (rest : Bytes) →
    readElems n (printElems p i (es.length - 1) es ++ ((if p then [] else breakIndent i) ++ 0x5D :: rest)) = some (es, rest)
  | [], _, hne, i, n, hn, rest => absurd rfl hne
  | v :: r, h, _, i, n, hn, rest => by
      cases n with
      | zero => simp [needE] at hn
      | succ n =>
        have h' : NumbersOk v ∧ NumbersOkE r := by simpa [NumbersOkE] using h
        simp only [needE] at hn
        cases r with
        | nil =>
          have ihm := read_print p v h'.1 (i+1) n (by omega) ((if p then [] else breakIndent i) ++ 0x5D :: rest) (numStop_opt p i (by decide) _)
          have hp : printElems p i ([v].length - 1) [v] ++ ((if p then [] else breakIndent i) ++ 0x5D :: rest)
            = (if p then [] else breakIndent (i+1)) ++ (print p (i+1) v ++ ((if p then [] else breakIndent i) ++ 0x5D :: rest)) := by
            simp [printElems]
          rw [hp, readElems_skip _ (skipWs_opt p (i+1) _)]
          simp only [readElems, ihm, skipWs_opt, skipWs_nonws (show isWs 0x5D = false by decide)]
        | cons m2 r2 =>
          have ih := read_elems p (m2 :: r2) h'.2 (by simp) i n (by simp [needE] at hn ⊢; omega) rest
          have ihm := read_print p v h'.1 (i+1) n (by omega)
            (0x2C :: (printElems p i ((m2 :: r2).length - 1) (m2 :: r2) ++ ((if p then [] else breakIndent i) ++ 0x5D :: rest)))
            (numStop_cons (by decide) _)
          have hp : printElems p i ((v :: m2 :: r2).length - 1) (v :: m2 :: r2) ++ ((if p then [] else breakIndent i) ++ 0x5D :: rest)
            = (if p then [] else breakIndent (i+1)) ++ (print p (i+1) v ++
               (0x2C :: (printElems p i ((m2 :: r2).length - 1) (m2 :: r2) ++ ((if p then [] else breakIndent i) ++ 0x5D :: rest)))) := by
            rw [printElems]; simp [asc]
          rw [hp, readElems_skip _ (skipWs_opt p (i+1) _)]
          simp only [readElems, ihm, skipWs_nonws (show isWs 0x2C = false by decide), ih, Option.map_some]
termination_by structural v => v
end

/-! ## white space outside string literals -/

theorem strip_quoted_body (s X : Bytes) :
    stripWs .inside (escape s ++ 0x22 :: X) = escape s ++ 0x22 :: stripWs .outside X := by
  have hb : ∀ (b : UInt8) (Y : Bytes), stripWs .inside (escapeByte b ++ Y) = escapeByte b ++ stripWs .inside Y := by
    intro b Y
    unfold escapeByte
    split; · simp [asc, stripWs]
    split; · simp [asc, stripWs]
    split; · simp [asc, stripWs]
    split; · simp [asc, stripWs]
    split; · simp [asc, stripWs]
    split; · simp [asc, stripWs]
    split; · simp [asc, stripWs]
    split
    · rename_i h1 h2 _ _ _ _ _ _
      have h1 : b ≠ 0x22 := h1
      have h2 : b ≠ 0x5C := h2
      simp [stripWs, h1, h2]
    · have hh : ∀ n : Fin 16, hexLower n.val ≠ 0x22 ∧ hexLower n.val ≠ 0x5C := by decide
      have hl : ∀ m : Nat, hexLower (m % 16) ≠ 0x22 ∧ hexLower (m % 16) ≠ 0x5C :=
        fun m => hh ⟨m % 16, Nat.mod_lt _ (by decide)⟩
      simp [jsonUtfChar, asc, stripWs, hl]
  induction s with
  | nil => simp [escape, stripWs]
  | cons b r ih =>
    have : escape (b :: r) = escapeByte b ++ escape r := by simp [escape]
    rw [this, List.append_assoc, hb, ih, List.append_assoc]

theorem strip_quoted (s X : Bytes) : stripWs .outside (quoted s ++ X) = quoted s ++ stripWs .outside X := by
  have := strip_quoted_body s X
  simp [quoted, asc, stripWs, isWs, this]

theorem strip_plain {c : UInt8} (h : isWs c = false) (h2 : c ≠ 0x22) (X : Bytes) :
    stripWs .outside (c :: X) = c :: stripWs .outside X := by
  simp [stripWs, h, h2]

theorem strip_break (i : Nat) (X : Bytes) : stripWs .outside (breakIndent i ++ X) = stripWs .outside X := by
  have : ∀ n, stripWs .outside (List.replicate n 0x20 ++ X) = stripWs .outside X := by
    intro n
    induction n with
    | zero => rfl
    | succ n ih => rw [List.replicate_succ, List.cons_append]; simp [stripWs, isWs]; exact ih
  show stripWs .outside (0x0A :: (List.replicate (2*i) 0x20 ++ X)) = _
  simp only [stripWs, isWs]; simpa using this (2*i)

theorem strip_break_opt (b : Bool) (i : Nat) (X : Bytes) :
    stripWs .outside ((if b then [] else breakIndent i) ++ X) = stripWs .outside X := by
  cases b
  · exact strip_break i X
  · rfl

theorem strip_number {s : Bytes} (h : JsonNumber s) (X : Bytes) :
    stripWs .outside (s ++ X) = s ++ stripWs .outside X := by
  have hn := numChar_of_number h
  have hb : ∀ c : UInt8, isNumChar c = true → isWs c = false ∧ c ≠ 0x22 := forallU8 (by decide +kernel)
  clear h
  induction s with
  | nil => rfl
  | cons c r ih =>
    have := hb c (hn c (by simp))
    rw [List.cons_append, strip_plain this.1 this.2, ih (fun d hd => hn d (by simp [hd])), List.cons_append]

mutual
theorem print_packed_indent : (v : Value) → (i : Nat) → print true i v = print true 0 v
  | .null, i => rfl
  | .tru, i => rfl
  | .fls, i => rfl
  | .str s, i => rfl
  | .num s, i => rfl
  | .obj ms, i => by simp [print, packed_indentM ms i]
  | .arr es, i => by simp [print, packed_indentE es i]
termination_by structural v => v
theorem packed_indentM : (ms : List (Bytes × Value)) → (i c : Nat) → printMembers true i c ms = printMembers true 0 c ms
  | [], i, c => rfl
  | m :: r, i, c => by simp [printMembers, packed_indentM r i, packed_indentP m i]
termination_by structural v => v
theorem packed_indentP : (m : Bytes × Value) → (i : Nat) → printMember true i m = printMember true 0 m
  | (k, v), i => by
      have a := print_packed_indent v (i + 1)
      have b := print_packed_indent v (0 + 1)
      simp only [printMember, a, b]
termination_by structural v => v
theorem packed_indentE : (es : List Value) → (i c : Nat) → printElems true i c es = printElems true 0 c es
  | [], i, c => rfl
  | v :: r, i, c => by
      simp [printElems, packed_indentE r i, print_packed_indent v (i + 1), print_packed_indent v 1]
termination_by structural v => v
end

mutual
theorem strip_print (p : Bool) : (v : Value) → NumbersOk v → (i : Nat) → (X : Bytes) →
    stripWs .outside (print p i v ++ X) = print true 0 v ++ stripWs .outside X
  | .null, _, i, X => by simp [print, str, asc, stripWs, isWs]
  | .tru, _, i, X => by simp [print, str, asc, stripWs, isWs]
  | .fls, _, i, X => by simp [print, str, asc, stripWs, isWs]
  | .str s, _, i, X => by simp only [print]; exact strip_quoted s X
  | .num s, h, i, X => by simp only [print]; exact strip_number (by simpa [NumbersOk] using h) X
  | .obj ms, h, i, X => by
      have ih := strip_members p ms (by simpa [NumbersOk] using h) i (ms.length - 1)
      simp only [print, List.cons_append, List.append_assoc]
      rw [strip_plain (by decide) (by decide), ih, strip_break_opt, strip_plain (by decide) (by decide)]
      simp
  | .arr es, h, i, X => by
      have ih := strip_elems p es (by simpa [NumbersOk] using h) i (es.length - 1)
      simp only [print, List.cons_append, List.append_assoc]
      rw [strip_plain (by decide) (by decide), ih, strip_break_opt, strip_plain (by decide) (by decide)]
      simp
termination_by structural v => v
theorem strip_members (p : Bool) : (ms : List (Bytes × Value)) → NumbersOkM ms → (i c : Nat) → (X : Bytes) →
    stripWs .outside (printMembers p i c ms ++ X) = printMembers true 0 c ms ++ stripWs .outside X
  | [], _, i, c, X => by simp [printMembers]
  | m :: r, h, i, c, X => by
      have h' : NumbersOkP m ∧ NumbersOkM r := by simpa [NumbersOkM] using h
      have ih := strip_members p r h'.2 i (c - 1)
      have ihm := strip_member p m h'.1 i
      simp only [printMembers, List.append_assoc]
      rw [strip_break_opt, ihm]
      by_cases hc : c > 0
      · simp only [hc, if_true, List.singleton_append]
        rw [strip_plain (by decide) (by decide), ih]; simp
      · simp only [hc, if_false, List.nil_append]
        rw [ih]; simp
termination_by structural v => v
theorem strip_member (p : Bool) : (m : Bytes × Value) → NumbersOkP m → (i : Nat) → (X : Bytes) →
    stripWs .outside (printMember p i m ++ X) = printMember true 0 m ++ stripWs .outside X
  | (k, v), h, i, X => by
      have ih := fun i => strip_print p v (by simpa [NumbersOkP] using h) i X
      have ih' : ∀ i, print true i v = print true 0 v := by
        intro i
        exact print_packed_indent v i
      simp only [printMember, List.append_assoc]
      rw [strip_quoted, List.singleton_append, strip_plain (by decide) (by decide)]
      cases p
      · simp only [Bool.false_eq_true, if_false, List.singleton_append]
        rw [show stripWs .outside (asc ' ' :: (print false (i+1) v ++ X)) = stripWs .outside (print false (i+1) v ++ X) by
          simp [stripWs, isWs, asc]]
        rw [ih, ih' (0+1)]; simp
      · simp only [if_true, List.nil_append]
        rw [ih, ih' (0+1)]; simp
termination_by structural v => v
theorem strip_elems (p : Bool) : (es : List Value) → NumbersOkE es → (i c : Nat) → (X : Bytes) →
    stripWs .outside (printElems p i c es ++ X) = printElems true 0 c es ++ stripWs .outside X
  | [], _, i, c, X => by simp [printElems]
  | v :: r, h, i, c, X => by
      have h' : NumbersOk v ∧ NumbersOkE r := by simpa [NumbersOkE] using h
      have ih := strip_elems p r h'.2 i (c - 1)
      have ihm := strip_print p v h'.1 (i + 1)
      simp only [printElems, List.append_assoc]
      rw [strip_break_opt, ihm, print_packed_indent v (0+1)]
      by_cases hc : c > 0
      · simp only [hc, if_true, List.singleton_append]
        rw [strip_plain (by decide) (by decide), ih]; simp
      · simp only [hc, if_false, List.nil_append]
        rw [ih]; simp
termination_by structural v => v
end

end Verif.Json
