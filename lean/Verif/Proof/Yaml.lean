import Verif.Model.Yaml
import Verif.Spec.Yaml
import Verif.Proof.Utf8
namespace Verif.Yaml
open Verif Verif.So Verif.Spec Verif.Spec.Json Verif.Spec.Yaml Verif.Utf8

abbrev pre (u : Bytes) (o : Option (Bytes × Bytes)) : Option (Bytes × Bytes) := o.map fun (x, t) => (u ++ x, t)

theorem readDq_quote (r : Bytes) : readDq (0x22 :: r) = some ([], r) := by rw [readDq.eq_def]; simp

theorem readDq_plain {c : UInt8} (h1 : c ≠ 0x22) (h2 : c ≠ 0x5C) (h3 : ¬ c < 0x20) (r : Bytes) :
    readDq (c :: r) = pre [c] (readDq r) := by
  rw [readDq.eq_def]; simp [h1, h2, h3, pre]

theorem readDq_plains (p : Bytes) (h : ∀ c ∈ p, c ≠ 0x22 ∧ c ≠ 0x5C ∧ ¬ c < 0x20) (r : Bytes) :
    readDq (p ++ r) = pre p (readDq r) := by
  induction p with
  | nil => simp [pre]
  | cons c p ih =>
    have hc := h c (by simp)
    rw [List.cons_append, readDq_plain hc.1 hc.2.1 hc.2.2, ih (fun d hd => h d (by simp [hd]))]
    cases readDq r <;> simp [pre]

theorem readDq_esc {e : UInt8} {u : Nat} (h1 : escapeWidth e = none) (h2 : escapeChar e = some u) (r : Bytes) :
    readDq (0x5C :: e :: r) = pre (utf8 u) (readDq r) := by
  rw [readDq.eq_def]; simp [h1, h2, pre]

theorem readDq_hex {e : UInt8} {w u : Nat} {ds : Bytes} (h1 : escapeWidth e = some w) (hl : ds.length = w)
    (h2 : hexNum 0 ds = some u) (hs : Scalar u) (r : Bytes) :
    readDq (0x5C :: e :: (ds ++ r)) = pre (utf8 u) (readDq r) := by
  subst hl
  rw [readDq.eq_def]; simp [h1, h2, hs, pre, Nat.not_lt.2 (Nat.le_add_right _ _)]

theorem hexVal_upper (n : Nat) (h : n < 16) : hexVal (hexUpper n) = some n := by
  have : ∀ n : Fin 16, hexVal (hexUpper n) = some n.val := by decide
  exact this ⟨n, h⟩

theorem hexNum_cons (acc n : Nat) (h : n < 16) (r : Bytes) : hexNum acc (hexUpper n :: r) = hexNum (acc * 16 + n) r := by
  simp [hexNum, hexVal_upper n h]

theorem utf8_bytes (c : Nat) (h : c < 0x110000) (b : UInt8) (hb : b ∈ utf8 c) : (b.toNat = c ∧ c < 0x80) ∨ 0x80 ≤ b.toNat := by
  unfold utf8 at hb
  split at hb
  · simp only [List.mem_cons, List.not_mem_nil, or_false] at hb; subst hb; left; rw [toNat_toUInt8]; omega
  split at hb
  · simp only [List.mem_cons, List.not_mem_nil, or_false] at hb; right; rcases hb with rfl | rfl <;> rw [toNat_toUInt8] <;> omega
  split at hb
  · simp only [List.mem_cons, List.not_mem_nil, or_false] at hb; right; rcases hb with rfl | rfl | rfl <;> rw [toNat_toUInt8] <;> omega
  · simp only [List.mem_cons, List.not_mem_nil, or_false] at hb; right; rcases hb with rfl | rfl | rfl | rfl <;> rw [toNat_toUInt8] <;> omega

theorem utf8_plain (c : Nat) (h : c < 0x110000) (h1 : 0x20 ≤ c) (h2 : c ≠ 0x22) (h3 : c ≠ 0x5C) :
    ∀ b ∈ utf8 c, b ≠ 0x22 ∧ b ≠ 0x5C ∧ ¬ b < 0x20 := by
  intro b hb
  have := utf8_bytes c h b hb
  rw [ne_eq, ne_eq, ← UInt8.toNat_inj, ← UInt8.toNat_inj, lt_iff]
  have k1 : (0x22 : UInt8).toNat = 0x22 := rfl
  have k2 : (0x5C : UInt8).toNat = 0x5C := rfl
  have k3 : (0x20 : UInt8).toNat = 0x20 := rfl
  rw [k1, k2, k3]
  omega

theorem escapeCp_cases (P : Nat → Bytes → Prop) (c : Nat)
    (h0 : P 0x00 (escSeq '0'))
    (h1 : P 0x07 (escSeq 'a'))
    (h2 : P 0x08 (escSeq 'b'))
    (h3 : P 0x09 (escSeq 't'))
    (h4 : P 0x0A (escSeq 'n'))
    (h5 : P 0x0B (escSeq 'v'))
    (h6 : P 0x0C (escSeq 'f'))
    (h7 : P 0x0D (escSeq 'r'))
    (h8 : P 0x1B (escSeq 'e'))
    (h9 : P 0x22 (escSeq '"'))
    (h10 : P 0x5C (escSeq '\\'))
    (h11 : P 0x85 (escSeq 'N'))
    (h12 : P 0xA0 (escSeq '_'))
    (h13 : P 0x2028 (escSeq 'L'))
    (h14 : P 0x2029 (escSeq 'P'))
    (hp : c ≠ 0x0A → c ≠ 0x0D → c ≠ 0x85 → c ≠ 0x2028 → c ≠ 0x2029 → c ≠ 0x22 → c ≠ 0x5C → c ≠ 9 → isYamlPrintable c = true → P c ((encode c).getD []))
    (he : P c (serializeEscaped c)) : P c (escapeCp c) := by
  unfold escapeCp
  by_cases c0 : c = 0x00
  · subst c0; exact h0
  rw [if_neg c0]
  by_cases c1 : c = 0x07
  · subst c1; exact h1
  rw [if_neg c1]
  by_cases c2 : c = 0x08
  · subst c2; exact h2
  rw [if_neg c2]
  by_cases c3 : c = 0x09
  · subst c3; exact h3
  rw [if_neg c3]
  by_cases c4 : c = 0x0A
  · subst c4; exact h4
  rw [if_neg c4]
  by_cases c5 : c = 0x0B
  · subst c5; exact h5
  rw [if_neg c5]
  by_cases c6 : c = 0x0C
  · subst c6; exact h6
  rw [if_neg c6]
  by_cases c7 : c = 0x0D
  · subst c7; exact h7
  rw [if_neg c7]
  by_cases c8 : c = 0x1B
  · subst c8; exact h8
  rw [if_neg c8]
  by_cases c9 : c = 0x22
  · subst c9; exact h9
  rw [if_neg c9]
  by_cases c10 : c = 0x5C
  · subst c10; exact h10
  rw [if_neg c10]
  by_cases c11 : c = 0x85
  · subst c11; exact h11
  rw [if_neg c11]
  by_cases c12 : c = 0xA0
  · subst c12; exact h12
  rw [if_neg c12]
  by_cases c13 : c = 0x2028
  · subst c13; exact h13
  rw [if_neg c13]
  by_cases c14 : c = 0x2029
  · subst c14; exact h14
  rw [if_neg c14]
  split
  · rename_i h; exact hp c4 c7 c11 c13 c14 c9 c10 c3 h
  · exact he

theorem readDq_escapeCp (c : Nat) (h : Scalar c) (r : Bytes) : readDq (escapeCp c ++ r) = pre (utf8 c) (readDq r) := by
  have hc := cond c h
  apply escapeCp_cases (fun c e => readDq (e ++ r) = pre (utf8 c) (readDq r)) c
  all_goals try (exact readDq_esc (by decide) (by decide) r)
  · intro n1 n2 n3 n4 n5 n6 n7 n8 hp
    rw [encode_utf8 c hc.1]
    apply readDq_plains
    apply utf8_plain c hc.1
    · simp [isYamlPrintable] at hp; omega
    · exact n6
    · exact n7
  · simp only [serializeEscaped]
    split
    · exact readDq_hex (e := asc 'x') (ds := [_, _]) (w := 2) (by decide) rfl
        (by rw [hexNum_cons _ _ (by omega), hexNum_cons _ _ (by omega)]; simp [hexNum]; omega) h r
    split
    · exact readDq_hex (e := asc 'u') (ds := [_, _, _, _]) (w := 4) (by decide) rfl
        (by rw [hexNum_cons _ _ (by omega), hexNum_cons _ _ (by omega), hexNum_cons _ _ (by omega), hexNum_cons _ _ (by omega)]; simp [hexNum]; omega) h r
    · exact readDq_hex (e := asc 'U') (ds := [_, _, _, _, _, _, _, _]) (w := 8) (by decide) rfl
        (by rw [hexNum_cons _ _ (by omega), hexNum_cons _ _ (by omega), hexNum_cons _ _ (by omega), hexNum_cons _ _ (by omega),
              hexNum_cons _ _ (by omega), hexNum_cons _ _ (by omega), hexNum_cons _ _ (by omega), hexNum_cons _ _ (by omega)]; simp [hexNum]; omega) h r

theorem readDq_escape (cs : List Nat) (h : ∀ c ∈ cs, Scalar c) (r : Bytes) :
    readDq (cs.flatMap escapeCp ++ 0x22 :: r) = some (utf8s cs, r) := by
  induction cs with
  | nil => simp [readDq_quote, utf8s]
  | cons c cs ih =>
    rw [List.flatMap_cons, List.append_assoc, readDq_escapeCp c (h c (by simp)), ih (fun d hd => h d (by simp [hd]))]
    simp [pre, utf8s]

theorem readDq_quoted (s : Bytes) (h : WellFormed s) (r : Bytes) : readDq (escape s ++ 0x22 :: r) = some (s, r) := by
  obtain ⟨cs, hcs, rfl⟩ := h
  have := decodeAll_utf8s cs hcs []
  rw [List.append_nil, decodeAll_nil, List.append_nil] at this
  rw [escape, this, readDq_escape cs hcs]

theorem ascii_utf8 (l : Bytes) (h : ∀ b ∈ l, b < 0x80) : l = utf8s (l.map (·.toNat)) := by
  induction l with
  | nil => rfl
  | cons b l ih =>
    have hb : b.toNat < 0x80 := by have := h b (by simp); rwa [lt_iff] at this
    have := ih (fun d hd => h d (by simp [hd]))
    simp only [utf8s, List.map_cons, List.flatMap_cons] at this ⊢
    rw [← this]
    simp [utf8, hb]

/-- The text written for one code point, as code points: printable and without line breaks. -/
theorem escapeCp_printable (c : Nat) (h : Scalar c) :
    ∃ out, escapeCp c = utf8s out ∧ ∀ d ∈ out, Printable d ∧ ¬ LineBreak d := by
  have hc := cond c h
  have asciiOk : ∀ l : Bytes, (∀ b ∈ l, 0x20 ≤ b.toNat ∧ b.toNat ≤ 0x7E) →
      ∃ out, l = utf8s out ∧ ∀ d ∈ out, Printable d ∧ ¬ LineBreak d := by
    intro l hl
    refine ⟨l.map (·.toNat), ascii_utf8 l (fun b hb => by
      rw [lt_iff, show (0x80:UInt8).toNat = 128 from rfl]; have := hl b hb; omega), ?_⟩
    intro d hd
    obtain ⟨b, hb, rfl⟩ := List.mem_map.1 hd
    have := hl b hb
    unfold Printable LineBreak
    omega
  have hexOk : ∀ n, n < 16 → 0x20 ≤ (hexUpper n).toNat ∧ (hexUpper n).toNat ≤ 0x7E := by
    intro n hn
    have : ∀ n : Fin 16, 0x20 ≤ (hexUpper n).toNat ∧ (hexUpper n).toNat ≤ 0x7E := by decide
    exact this ⟨n, hn⟩
  apply escapeCp_cases (fun c e => ∃ out, e = utf8s out ∧ ∀ d ∈ out, Printable d ∧ ¬ LineBreak d) c
  all_goals try (apply asciiOk; decide)
  · intro n1 n2 n3 n4 n5 n6 n7 n8 hp
    refine ⟨[c], by rw [encode_utf8 c hc.1]; simp [utf8s], ?_⟩
    intro d hd
    simp at hd; subst hd
    simp [isYamlPrintable] at hp
    unfold Printable LineBreak
    omega
  · apply asciiOk
    intro b hb
    simp only [serializeEscaped] at hb
    have k1 : 0x20 ≤ (asc '\\').toNat ∧ (asc '\\').toNat ≤ 0x7E := by decide
    have k2 : 0x20 ≤ (asc 'x').toNat ∧ (asc 'x').toNat ≤ 0x7E := by decide
    have k3 : 0x20 ≤ (asc 'u').toNat ∧ (asc 'u').toNat ≤ 0x7E := by decide
    have k4 : 0x20 ≤ (asc 'U').toNat ∧ (asc 'U').toNat ≤ 0x7E := by decide
    have hh : ∀ n, 0x20 ≤ (hexUpper (n % 16)).toNat ∧ (hexUpper (n % 16)).toNat ≤ 0x7E := fun n => hexOk _ (by omega)
    split at hb
    · simp only [List.mem_cons, List.not_mem_nil, or_false] at hb
      rcases hb with rfl | rfl | rfl | rfl <;> simp only [k1, k2, hh, and_self]
    split at hb
    · simp only [List.mem_cons, List.not_mem_nil, or_false] at hb
      rcases hb with rfl | rfl | rfl | rfl | rfl | rfl <;> simp only [k1, k3, hh, and_self]
    · simp only [List.mem_cons, List.not_mem_nil, or_false] at hb
      rcases hb with rfl | rfl | rfl | rfl | rfl | rfl | rfl | rfl | rfl | rfl <;> simp only [k1, k4, hh, and_self]

theorem escape_printable (cs : List Nat) (h : ∀ c ∈ cs, Scalar c) :
    ∃ out, cs.flatMap escapeCp = utf8s out ∧ ∀ d ∈ out, Printable d ∧ ¬ LineBreak d := by
  induction cs with
  | nil => exact ⟨[], rfl, by simp⟩
  | cons c cs ih =>
    obtain ⟨o1, h1, h2⟩ := escapeCp_printable c (h c (by simp))
    obtain ⟨o2, h3, h4⟩ := ih (fun d hd => h d (by simp [hd]))
    refine ⟨o1 ++ o2, by simp [h1, h3, utf8s], ?_⟩
    intro d hd
    rcases List.mem_append.1 hd with h | h
    · exact h2 d h
    · exact h4 d h

end Verif.Yaml
