import Verif.Proof.Metadata
import Mathlib.Data.List.Forall2
/-!
# C47 Body-less statuses and methods; C48 Metadata duplicates are reported once per key
-/
namespace Verif.Props
open Verif Verif.Text Verif.Spec

/-! ## C47 -/

/-- A response body is disallowed exactly for the statuses 204, 304 and 100 to 199. -/
theorem C47_status (code : Nat) : Http.statusAllowsBody code = false ↔ code = 204 ∨ code = 304 ∨ (100 ≤ code ∧ code ≤ 199) := by
  unfold Http.statusAllowsBody
  simp only [Bool.not_eq_eq_eq_not, Bool.not_false, Bool.or_eq_true, decide_eq_true_eq]
  omega

/-- A response body is disallowed exactly for the methods HEAD and CONNECT. -/
theorem C47_method (method : Bytes) : Http.methodAllowsBody method = false ↔ method = str "HEAD" ∨ method = str "CONNECT" := by
  unfold Http.methodAllowsBody
  simp only [Bool.not_eq_eq_eq_not, Bool.not_false, Bool.or_eq_true, decide_eq_true_eq]

theorem digit_lt (c : UInt8) : Http.isDigit c = true → c.toNat - 48 < 10 :=
  forallU8 (P := fun c => Http.isDigit c = true → c.toNat - 48 < 10) (by decide +kernel) c

theorem store_small {v : Nat} (hv : v < 1000) : Http.store false v = v := by
  unfold Http.store
  rw [if_neg (Nat.not_le.2 (Nat.lt_of_lt_of_le hv (by decide)))]
  rfl

theorem extract_digits {d after : Bytes} (hd : d ≠ []) (h : ∀ c ∈ d, Http.isDigit c = true) (ha : ∀ c, after.head? = some c → Http.isDigit c = false) :
    Http.extract (d ++ after) = Http.store false (Http.digits 0 d) := by
  obtain ⟨x, r, rfl⟩ := List.exists_cons_of_ne_nil hd
  have hdig : ∀ c : UInt8, Http.isDigit c = true → isSpace c = false ∧ c ≠ asc '-' ∧ c ≠ asc '+' := by
    exact forallU8 (by decide +kernel)
  obtain ⟨h1, h2, h3⟩ := hdig x (h x (by simp))
  have ht : trimStart (x :: r ++ after) = x :: r ++ after := by
    unfold trimStart
    rw [List.cons_append, List.dropWhile_cons, h1]; rfl
  have htw : (x :: r ++ after).takeWhile Http.isDigit = x :: r := by
    rw [List.takeWhile_append_of_pos h]
    cases after with
    | nil => simp
    | cons c q => simp [ha c rfl]
  unfold Http.extract
  rw [ht]
  simp only [List.cons_append, List.head?_cons, Option.some.injEq, h2, h3, decide_false, Bool.or_self, Bool.false_eq_true, ↓reduceIte]
  rw [← List.cons_append, htw]

theorem extract_three {x y z : UInt8} (h1 : Http.isDigit x = true) (h2 : Http.isDigit y = true)
    (h3 : Http.isDigit z = true) {after : Bytes} (ha : ∀ c, after.head? = some c → Http.isDigit c = false) {code : Nat}
    (hc : code = 100 * (x.toNat - 48) + 10 * (y.toNat - 48) + (z.toNat - 48)) : Http.extract (x :: y :: z :: after) = code := by
  have h := extract_digits (d := [x, y, z]) (by simp) (by simp [h1, h2, h3]) ha
  have d1 := digit_lt x h1
  have d2 := digit_lt y h2
  have d3 := digit_lt z h3
  refine h.trans ?_
  generalize hv : Http.digits 0 [x, y, z] = v
  have e : v = code := by
    rw [← hv, hc]
    show 10 * (10 * (10 * 0 + (x.toNat - 48)) + (y.toNat - 48)) + (z.toNat - 48) = _
    generalize x.toNat - 48 = a
    generalize y.toNat - 48 = b
    generalize z.toNat - 48 = c
    omega
  rw [e]
  refine store_small ?_
  clear h hv
  omega

theorem digits_append (n : Nat) (a b : Bytes) : Http.digits n (a ++ b) = Http.digits (Http.digits n a) b := by
  induction a generalizing n with
  | nil => rfl
  | cons c a ih => exact ih _

/-- A response named by a status of three digits and a body that is settled is warned of exactly if the status allows none. -/
theorem C47_response (x y z : UInt8) (h1 : Http.isDigit x = true) (h2 : Http.isDigit y = true) (h3 : Http.isDigit z = true)
    (after body : Bytes) (ha : ∀ c, after.head? = some c → Http.isDigit c = false) (code : Nat)
    (hc : code = 100 * (x.toNat - 48) + 10 * (y.toNat - 48) + (z.toNat - 48)) :
    Http.checkResponse (x :: y :: z :: after) body false =
      if body ≠ [] ∧ (code = 204 ∨ code = 304 ∨ (100 ≤ code ∧ code ≤ 199)) then some code else none := by
  have hext := extract_three h1 h2 h3 ha hc
  unfold Http.checkResponse
  simp only [List.isEmpty_cons, Bool.false_eq_true, ↓reduceIte, hext, Bool.not_false, Bool.and_true]
  have := C47_status code
  cases hs : Http.statusAllowsBody code with
  | false =>
    have h := this.1 hs
    cases body <;> simp [h]
  | true =>
    rw [hs] at this
    simp only [Bool.true_eq_false, false_iff] at this
    simp [this]

example : Http.checkResponse (str "204") (str "x") false = some 204 := by decide +kernel
example : Http.checkResponse (str "200") (str "x") false = none := by decide +kernel

/-- A response to HEAD with a body is warned of; one to CONNECT only if the status is 200 to 299; others are not. -/
theorem C47_method_warning (method name body : Bytes) (hb : body ≠ []) :
    (Http.checkMethod method name body = some .method ↔ method = str "HEAD") ∧
    (∀ code, Http.checkMethod method name body = some (.connect code) ↔
      method = str "CONNECT" ∧ code = Http.extract name ∧ 200 ≤ code ∧ code ≤ 299) := by
  unfold Http.checkMethod
  have hb' : body.isEmpty = false := by cases body; exact absurd rfl hb; rfl
  by_cases h1 : method = str "HEAD"
  · subst h1
    have : Http.methodAllowsBody (str "HEAD") = false := by decide
    have h2 : str "HEAD" ≠ str "CONNECT" := by decide
    simp [this, hb', h2]
  · by_cases h2 : method = str "CONNECT"
    · subst h2
      have : Http.methodAllowsBody (str "CONNECT") = false := by decide
      simp only [this, hb', Bool.not_false, Bool.and_self, ↓reduceIte, decide_true, Bool.true_and, decide_eq_true_eq, ne_eq, not_true_eq_false,
        decide_false, Bool.false_and, Bool.false_eq_true]
      refine ⟨?_, fun code => ?_⟩
      · split <;> simp [h1]
      · split
        · simp only [Option.some.injEq, Http.MethodWarning.connect.injEq, true_and]
          constructor
          · rintro rfl; exact ⟨rfl, by omega⟩
          · rintro ⟨rfl, _⟩; rfl
        · simp only [reduceCtorEq, true_and, false_iff]; rintro ⟨rfl, h⟩; omega
    · have : Http.methodAllowsBody method = true := by
        cases h : Http.methodAllowsBody method with
        | true => rfl
        | false => rcases (C47_method method).1 h with h | h <;> contradiction
      simp [this, h1, h2]

example : Http.checkMethod (str "CONNECT") (str "200") (str "x") = some (.connect 200) := by decide +kernel

/-! ## C48 -/

/-- For a paragraph all of whose lines are keys and values, the metadata are these, and the warnings are, without repetition, one
    for each key that occurs more than once. -/
theorem C48_duplicates (lines : List Bytes) (kvs : List (Bytes × Bytes)) (text blank : Bytes)
    (ht : text = [asc '\n'].intercalate lines ++ blank) (hb : Blank blank)
    (hlast : ∀ l, lines.getLast? = some l → ∃ c, l.getLast? = some c ∧ ¬ White c)
    (hn : ∀ l ∈ lines, asc '\n' ∉ l)
    (hk : List.Forall₂ (fun l kv => KeyValue l kv.1 kv.2) lines kvs) :
    (Metadata.parseMetadata text).1 = kvs ∧ (Metadata.parseMetadata text).2.Nodup ∧
    ∀ w, w ∈ (Metadata.parseMetadata text).2 ↔ ∃ k, w = .duplicate k ∧ 2 ≤ (kvs.map (·.1)).count k := by
  have hsolid : ∀ c, ([asc '\n'].intercalate lines).getLast? = some c → ¬ White c := by
    clear ht hn hk
    induction lines with
    | nil => intro c hc; simp [List.intercalate] at hc
    | cons l ls ih =>
      cases ls with
      | nil =>
        intro c hc
        simp [List.intercalate] at hc
        obtain ⟨d, hd, hw⟩ := hlast l rfl
        rw [hd] at hc; cases hc; exact hw
      | cons l' ls =>
        intro c hc
        have e : [asc '\n'].intercalate (l :: l' :: ls) = (l ++ [asc '\n']) ++ [asc '\n'].intercalate (l' :: ls) := by simp [List.intercalate]
        have h0 : [asc '\n'].intercalate (l' :: ls) ≠ [] := by
          cases ls with
          | nil =>
            obtain ⟨d, hd, _⟩ := hlast l' rfl
            intro h; simp [List.intercalate] at h; rw [h] at hd; simp at hd
          | cons l'' ls => simp [List.intercalate]
        rw [e, List.getLast?_append] at hc
        cases hg : ([asc '\n'].intercalate (l' :: ls)).getLast? with
        | none => exact absurd (List.getLast?_eq_none_iff.1 hg) h0
        | some d =>
          rw [hg] at hc; simp at hc; subst hc
          exact ih (fun x hx => hlast x (by simpa using hx)) d hg
  have hsplit : split (asc '\n') (trimEnd text) = lines := by
    rw [ht, trimEnd_unique hb hsolid]
    exact split_intercalate hn (fun p hp => by obtain ⟨c, hc, _⟩ := hlast p hp; rintro rfl; simp at hc)
  have hmap : lines.filterMap keyValueFromLine = kvs ∧ lines.length = kvs.length := by
    clear ht hlast hn hsolid hsplit
    induction hk with
    | nil => exact ⟨rfl, rfl⟩
    | @cons l kv ls kvs h _ ih =>
      have : keyValueFromLine l = some kv := keyValue_iff.2 h
      rw [List.filterMap_cons, this]
      exact ⟨by rw [ih.1], by simp [ih.2]⟩
  unfold Metadata.parseMetadata
  rw [hsplit]
  dsimp only
  rw [hmap.1, if_pos hmap.2]
  obtain ⟨h1, h2⟩ := Metadata.duplicates_spec kvs []
  exact ⟨rfl, h1, fun w => by rw [h2]; simp⟩

example : Metadata.parseMetadata (str "A: 1\nB: 2\nA: 3\nA: 4\n") =
    ([(str "A", str "1"), (str "B", str "2"), (str "A", str "3"), (str "A", str "4")], [.duplicate (str "A")]) := by decide +kernel

/-- The paragraphs at the start of a blueprint are divided in two: those before the first one without any key and value give the
    metadata, in order, and exactly that paragraph and all after it are left for the description. -/
theorem C48_division (ps : List Bytes) :
    ∃ front rest, ps = front ++ rest ∧ (Metadata.parseParagraphs ps).2.2 = rest ∧
      (∀ p ∈ front, ∃ l ∈ split (asc '\n') (trimEnd p), ∃ k v, KeyValue l k v) ∧
      (∀ p, rest.head? = some p → ∀ l ∈ split (asc '\n') (trimEnd p), ∀ k v, ¬KeyValue l k v) ∧
      (Metadata.parseParagraphs ps).1 = front.flatMap fun p => (split (asc '\n') (trimEnd p)).filterMap keyValueFromLine := by
  induction ps with
  | nil => exact ⟨[], [], rfl, rfl, by simp, by simp, rfl⟩
  | cons p ps ih =>
    unfold Metadata.parseParagraphs
    have hm : (Metadata.parseMetadata p).1 = (split (asc '\n') (trimEnd p)).filterMap keyValueFromLine := rfl
    dsimp only
    split
    · rename_i he
      refine ⟨[], p :: ps, rfl, rfl, by simp, ?_, rfl⟩
      intro q hq l hl k v hkv
      simp only [List.head?_cons, Option.some.injEq] at hq
      subst hq
      have : (k, v) ∈ (Metadata.parseMetadata p).1 := by rw [hm]; exact List.mem_filterMap.2 ⟨l, hl, keyValue_iff.2 hkv⟩
      rw [List.isEmpty_iff.1 he] at this
      simp at this
    · rename_i he
      obtain ⟨front, rest, rfl, h1, h2, h3, h4⟩ := ih
      refine ⟨p :: front, rest, rfl, h1, ?_, h3, ?_⟩
      · intro q hq
        simp only [List.mem_cons] at hq
        rcases hq with rfl | hq
        · cases hc : (Metadata.parseMetadata q).1 with
          | nil => simp [hc] at he
          | cons kv r =>
            have : kv ∈ (Metadata.parseMetadata q).1 := by rw [hc]; simp
            rw [hm] at this
            obtain ⟨l, hl, hkv⟩ := List.mem_filterMap.1 this
            exact ⟨l, hl, kv.1, kv.2, keyValue_iff.1 hkv⟩
        · exact h2 q hq
      · rw [h4, hm]; simp

/-- A paragraph in which some, but not all, lines are keys and values yields one warning, "ignoring possible metadata"; yet the
    keys and values are kept, and kept even in the metadata of the blueprint. -/
theorem C48_malformed (text : Bytes) (h1 : ∃ l ∈ split (asc '\n') (trimEnd text), ∃ k v, KeyValue l k v)
    (h2 : ∃ l ∈ split (asc '\n') (trimEnd text), ∀ k v, ¬ KeyValue l k v) (ps : List Bytes) :
    (Metadata.parseMetadata text).2 = [.malformed] ∧
    ∃ m ∈ (Metadata.parseParagraphs (text :: ps)).1, ∃ l ∈ split (asc '\n') (trimEnd text), KeyValue l m.1 m.2 := by
  obtain ⟨l, hl, k, v, hkv⟩ := h1
  have hmem : (k, v) ∈ (Metadata.parseMetadata text).1 := by
    unfold Metadata.parseMetadata
    exact List.mem_filterMap.2 ⟨l, hl, keyValue_iff.2 hkv⟩
  have hne : (Metadata.parseMetadata text).1.isEmpty = false := by
    cases h : (Metadata.parseMetadata text).1 with
    | nil => rw [h] at hmem; cases hmem
    | cons => rfl
  constructor
  · have hlen : ¬ (split (asc '\n') (trimEnd text)).length = ((split (asc '\n') (trimEnd text)).filterMap keyValueFromLine).length := by
      intro h
      obtain ⟨l', hl', hn⟩ := h2
      have := Metadata.filterMap_length.1 h.symm l' hl'
      obtain ⟨kv, hkv⟩ := Option.isSome_iff_exists.1 this
      exact hn _ _ (keyValue_iff.1 hkv)
    unfold Metadata.parseMetadata at hne ⊢
    dsimp only at hne ⊢
    rw [if_neg hlen, hne]; rfl
  · refine ⟨(k, v), ?_, l, hl, hkv⟩
    rw [Metadata.parseParagraphs]
    dsimp only
    rw [hne]
    simp [hmem]

example : Metadata.parseParagraphs [str "A: 1\nB\n"] = ([(str "A", str "1")], [.malformed], []) := by decide +kernel

/-- A key that is repeated in another paragraph is not reported. -/
theorem C48_paragraphs : Metadata.parseParagraphs [str "A: 1", str "A: 2"] =
    ([(str "A", str "1"), (str "A", str "2")], [], []) := by decide +kernel

end Verif.Props
