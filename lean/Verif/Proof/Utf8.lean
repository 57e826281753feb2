import Verif.Model.Utf8
import Verif.Spec.Utf8
namespace Verif.Utf8
open Verif Verif.Spec

theorem toNat_toUInt8 (n : Nat) : n.toUInt8.toNat = n % 256 := by
  simp [Nat.toUInt8]

theorem lt_iff (a b : UInt8) : a < b ↔ a.toNat < b.toNat := UInt8.lt_iff_toNat_lt
theorem le_iff (a b : UInt8) : a ≤ b ↔ a.toNat ≤ b.toNat := UInt8.le_iff_toNat_le

theorem and_mask (x k : Nat) (m : Nat) (h : m = 2 ^ k - 1) : x &&& m = x % 2 ^ k := by
  rw [h]; exact Nat.and_two_pow_sub_one_eq_mod x k

theorem shl_or (a b k : Nat) (h : b < 2 ^ k) : (a <<< k) ||| b = a * 2 ^ k + b := by
  rw [← Nat.shiftLeft_add_eq_or_of_lt h, Nat.shiftLeft_eq]

theorem two_or (x y : Nat) : ((x &&& 0x1F) <<< 6) ||| (y &&& 0x3F) = (x % 32) * 64 + y % 64 := by
  rw [and_mask x 5 _ rfl, and_mask y 6 _ rfl, shl_or _ _ _ (Nat.mod_lt _ (by decide))]

theorem three_or (x y z : Nat) : ((x &&& 0x0F) <<< 12) ||| ((y &&& 0x3F) <<< 6) ||| (z &&& 0x3F)
    = (x % 16) * 4096 + (y % 64) * 64 + z % 64 := by
  rw [and_mask x 4 _ rfl, and_mask y 6 _ rfl, and_mask z 6 _ rfl, Nat.or_assoc,
    shl_or _ _ _ (Nat.mod_lt _ (by decide)), shl_or _ _ 12 (by omega)]; omega

theorem four_or (x y z w : Nat) : ((x &&& 0x07) <<< 18) ||| ((y &&& 0x3F) <<< 12) ||| ((z &&& 0x3F) <<< 6) ||| (w &&& 0x3F)
    = (x % 8) * 262144 + (y % 64) * 4096 + (z % 64) * 64 + w % 64 := by
  rw [and_mask x 3 _ rfl, and_mask y 6 _ rfl, and_mask z 6 _ rfl, and_mask w 6 _ rfl, Nat.or_assoc, Nat.or_assoc,
    shl_or _ _ _ (Nat.mod_lt _ (by decide)), shl_or _ _ 12 (by omega), shl_or _ _ 18 (by omega)]; omega

theorem decodeOneChk_eq (s : Bytes) : decodeOneChk s = some (decodeOne s) := by
  cases s with
  | nil => rfl
  | cons a r =>
    have e1 : (a < 0x80) ↔ a.toNat < 0x80 := by rw [lt_iff]; rfl
    have e2 : (a < 0xE0) ↔ a.toNat < 0xE0 := by rw [lt_iff]; rfl
    have e3 : (a < 0xF0) ↔ a.toNat < 0xF0 := by rw [lt_iff]; rfl
    simp only [decodeOneChk, decodeOne, e1, e2, e3, List.isEmpty_cons, Bool.false_eq_true, if_false,
      List.getElem?_cons_zero, Option.bind_eq_bind, Option.bind_some]
    split
    · rfl
    split
    · cases r with
      | nil => rfl
      | cons b r =>
        rw [if_neg (by simp only [List.length_cons]; omega)]; simp [two_or]
    split
    · match r with
      | [] => rfl
      | [b] => rfl
      | b :: c :: r =>
        rw [if_neg (by simp only [List.length_cons]; omega)]; simp [three_or]; split <;> rename_i h <;> simp [h]
    · match r with
      | [] => rfl
      | [b] => rfl
      | [b, c] => rfl
      | b :: c :: d :: r =>
        rw [if_neg (by simp only [List.length_cons]; omega)]; simp [four_or]; split
        · rfl
        · split <;> rfl

theorem cond (c : Nat) (h : Scalar c) : c < 0x110000 ∧ ¬ (0xD800 ≤ c ∧ c ≤ 0xDFFF) := by
  unfold Scalar at h; omega

theorem decodeOne_utf8 (c : Nat) (h : Scalar c) (rest : Bytes) : decodeOne (utf8 c ++ rest) = (c, rest) := by
  have hc := cond c h
  unfold utf8
  split
  · simp only [List.cons_append, List.nil_append, decodeOne, lt_iff, toNat_toUInt8]
    rw [if_pos (by rw [show (0x80:UInt8).toNat = 0x80 from rfl]; omega), Nat.mod_eq_of_lt (by omega)]
  split
  · simp only [List.cons_append, List.nil_append, decodeOne, lt_iff, toNat_toUInt8,
      show (0x80:UInt8).toNat = 0x80 from rfl, show (0xE0:UInt8).toNat = 0xE0 from rfl]
    rw [if_neg (by omega), if_pos (by omega), if_neg (by omega)]
    congr 1; omega
  split
  · simp only [List.cons_append, List.nil_append, decodeOne, lt_iff, toNat_toUInt8,
      show (0x80:UInt8).toNat = 0x80 from rfl, show (0xE0:UInt8).toNat = 0xE0 from rfl, show (0xF0:UInt8).toNat = 0xF0 from rfl]
    have e : (0xE0 + c / 4096) % 256 % 16 * 4096 + (0x80 + c / 64 % 64) % 256 % 64 * 64 + (0x80 + c % 64) % 256 % 64 = c := by omega
    rw [if_neg (by omega), if_neg (by omega), if_pos (by omega), e, if_neg (by omega), if_neg (by omega)]
  · simp only [List.cons_append, List.nil_append, decodeOne, lt_iff, toNat_toUInt8,
      show (0x80:UInt8).toNat = 0x80 from rfl, show (0xE0:UInt8).toNat = 0xE0 from rfl, show (0xF0:UInt8).toNat = 0xF0 from rfl]
    have e : (0xF0 + c / 262144) % 256 % 8 * 262144 + (0x80 + c / 4096 % 64) % 256 % 64 * 4096 + (0x80 + c / 64 % 64) % 256 % 64 * 64 + (0x80 + c % 64) % 256 % 64 = c := by omega
    rw [if_neg (by omega), if_neg (by omega), if_neg (by omega), e, if_neg (by omega), if_neg (by omega)]

theorem utf8_ne_nil (c : Nat) : utf8 c ≠ [] := by
  unfold utf8; split <;> (try split) <;> (try split) <;> simp

theorem decodeAll_cons {s : Bytes} (h : s ≠ []) : decodeAll s = (decodeOne s).1 :: decodeAll (decodeOne s).2 := by
  cases s with
  | nil => exact absurd rfl h
  | cons a r => rw [decodeAll]

theorem decodeAll_nil : decodeAll [] = [] := by rw [decodeAll]

theorem decodeAll_utf8s (cs : List Nat) (h : ∀ c ∈ cs, Scalar c) (rest : Bytes) :
    decodeAll (utf8s cs ++ rest) = cs ++ decodeAll rest := by
  induction cs with
  | nil => rfl
  | cons c cs ih =>
    have : utf8s (c :: cs) ++ rest = utf8 c ++ (utf8s cs ++ rest) := by simp [utf8s]
    rw [this, decodeAll_cons (by simp [utf8_ne_nil]), decodeOne_utf8 c (h c (by simp)), ih (fun d hd => h d (by simp [hd]))]
    rfl

theorem or_const (x k m : Nat) (y : Nat) (hx : x < 2 ^ k) (hm : m = y * 2 ^ k) : x ||| m = m + x := by
  rw [hm, Nat.or_comm, ← Nat.shiftLeft_eq, ← Nat.shiftLeft_add_eq_or_of_lt hx]

theorem encode_utf8 (c : Nat) (h : c < 0x110000) : encode c = some (utf8 c) := by
  have m6 : ∀ x, x &&& 0x3F = x % 64 := fun x => and_mask x 6 _ rfl
  have m5 : ∀ x, x &&& 0x1F = x % 32 := fun x => and_mask x 5 _ rfl
  have m4 : ∀ x, x &&& 0x0F = x % 16 := fun x => and_mask x 4 _ rfl
  have m3 : ∀ x, x &&& 0x07 = x % 8 := fun x => and_mask x 3 _ rfl
  have o6 : ∀ x, x % 64 ||| 0x80 = 0x80 + x % 64 := fun x => or_const _ 6 _ 2 (Nat.mod_lt _ (by decide)) rfl
  have o5 : ∀ x, x % 32 ||| 0xC0 = 0xC0 + x % 32 := fun x => or_const _ 5 _ 6 (Nat.mod_lt _ (by decide)) rfl
  have o4 : ∀ x, x % 16 ||| 0xE0 = 0xE0 + x % 16 := fun x => or_const _ 4 _ 14 (Nat.mod_lt _ (by decide)) rfl
  have o3 : ∀ x, x % 8 ||| 0xF0 = 0xF0 + x % 8 := fun x => or_const _ 3 _ 30 (Nat.mod_lt _ (by decide)) rfl
  simp only [encode, m6, m5, m4, m3, o6, o5, o4, o3, Nat.shiftRight_eq_div_pow]
  unfold utf8
  split
  · rfl
  split
  · rw [show c / 2 ^ 6 % 32 = c / 64 by omega]
  split
  · rw [show c / 2 ^ 12 % 16 = c / 4096 by omega]
  rw [show c / 2 ^ 18 % 8 = c / 262144 by omega]

theorem decodeOne_scalar (a : UInt8) (r : Bytes) : Scalar (decodeOne (a :: r)).1 := by
  have hr : Scalar replacement := by decide
  simp only [decodeOne]
  split
  · rename_i h
    rw [lt_iff, show (0x80:UInt8).toNat = 0x80 from rfl] at h
    left; simp; omega
  split
  · split
    · simp only; split
      · exact hr
      · left; omega
    · exact hr
  split
  · split
    · simp only; split
      · exact hr
      split
      · exact hr
      · unfold Scalar; omega
    · exact hr
  · split
    · simp only; split
      · exact hr
      split
      · exact hr
      · unfold Scalar; omega
    · exact hr

theorem decodeAll_scalar (s : Bytes) : ∀ c ∈ decodeAll s, Scalar c := by
  fun_induction decodeAll s with
  | case1 => simp
  | case2 a r ih =>
    intro c hc
    rcases List.mem_cons.1 hc with h | h
    · subst h; exact decodeOne_scalar a r
    · exact ih c h

theorem decodeAll_length (s : Bytes) : (decodeAll s).length ≤ s.length := by
  fun_induction decodeAll s with
  | case1 => simp
  | case2 a r ih =>
    have := decodeOne_length a r
    simp only [List.length_cons] at *; omega

end Verif.Utf8
namespace Verif.Utf8
open Verif Verif.Spec

theorem cont_iff (b : UInt8) : Cont b ↔ 128 ≤ b.toNat ∧ b.toNat < 192 := by
  unfold Cont; rw [le_iff, lt_iff]; rfl

theorem u8_eq {a : UInt8} {n : Nat} (h : a.toNat = n) : a = n.toUInt8 := by
  subst h; simp

theorem framed_decode (u : Bytes) (hu : FramedUnit u) (rest : Bytes) :
    ∃ c, decodeOne (u ++ rest) = (c, rest) ∧ UnitMeaning u c := by
  by_cases hd : ∃ d, Scalar d ∧ u = utf8 d
  · obtain ⟨d, hs, rfl⟩ := hd
    exact ⟨d, decodeOne_utf8 d hs rest, Or.inl ⟨hs, rfl⟩⟩
  · refine ⟨replacement, ?_, Or.inr ⟨hd, rfl⟩⟩
    have k80 : (0x80:UInt8).toNat = 0x80 := rfl
    have kE0 : (0xE0:UInt8).toNat = 0xE0 := rfl
    have kF0 : (0xF0:UInt8).toNat = 0xF0 := rfl
    have kF8 : (0xF8:UInt8).toNat = 0xF8 := rfl
    have kC0 : (0xC0:UInt8).toNat = 0xC0 := rfl
    rcases hu with ⟨a, h, rfl⟩ | ⟨a, b, h1, h2, hb, rfl⟩ | ⟨a, b, c, h1, h2, hb, hc, rfl⟩ | ⟨a, b, c, d, h1, h2, hb, hc, hdd, rfl⟩
    · rw [lt_iff, k80] at h
      exact absurd ⟨a.toNat, by left; omega, by unfold utf8; rw [if_pos h]; simp⟩ hd
    · rw [le_iff, kC0] at h1; rw [lt_iff, kE0] at h2; rw [cont_iff] at hb
      simp only [List.cons_append, List.nil_append, decodeOne, lt_iff, k80, kE0]
      rw [if_neg (by omega), if_pos h2]
      split
      · rfl
      · rename_i hr
        refine absurd ⟨a.toNat % 32 * 64 + b.toNat % 64, Or.inl ?_, ?_⟩ hd
        · omega
        · unfold utf8
          rw [if_neg hr, if_pos (by omega), ← u8_eq (a := a) (by omega), ← u8_eq (a := b) (by omega)]
    · rw [le_iff, kE0] at h1; rw [lt_iff, kF0] at h2; rw [cont_iff] at hb hc
      simp only [List.cons_append, List.nil_append, decodeOne, lt_iff, k80, kE0, kF0]
      rw [if_neg (by omega), if_neg (by omega), if_pos h2]
      split
      · rfl
      split
      · rfl
      · rename_i hs hr
        refine absurd ⟨a.toNat % 16 * 4096 + b.toNat % 64 * 64 + c.toNat % 64, ?_, ?_⟩ hd
        · unfold Scalar; omega
        · unfold utf8
          rw [if_neg (by omega), if_neg hr, if_pos (by omega), ← u8_eq (a := a) (by omega), ← u8_eq (a := b) (by omega),
            ← u8_eq (a := c) (by omega)]
    · rw [le_iff, kF0] at h1; rw [lt_iff, kF8] at h2; rw [cont_iff] at hb hc hdd
      simp only [List.cons_append, List.nil_append, decodeOne, lt_iff, k80, kE0, kF0]
      rw [if_neg (by omega), if_neg (by omega), if_neg (by omega)]
      split
      · rfl
      split
      · rfl
      · rename_i hs hr
        refine absurd ⟨a.toNat % 8 * 262144 + b.toNat % 64 * 4096 + c.toNat % 64 * 64 + d.toNat % 64, ?_, ?_⟩ hd
        · unfold Scalar; omega
        · unfold utf8
          rw [if_neg (by omega), if_neg (by omega), if_neg (by omega), ← u8_eq (a := a) (by omega), ← u8_eq (a := b) (by omega),
            ← u8_eq (a := c) (by omega), ← u8_eq (a := d) (by omega)]

theorem framed_ne_nil (u : Bytes) (hu : FramedUnit u) : u ≠ [] := by
  rcases hu with ⟨a, h, rfl⟩ | ⟨a, b, h1, h2, hb, rfl⟩ | ⟨a, b, c, h1, h2, hb, hc, rfl⟩ | ⟨a, b, c, d, h1, h2, hb, hc, hdd, rfl⟩ <;> simp

theorem framed_decodeAll (us : List Bytes) (hu : ∀ u ∈ us, FramedUnit u) (rest : Bytes) :
    ∃ cs, decodeAll (us.flatten ++ rest) = cs ++ decodeAll rest ∧ Pairwise2 UnitMeaning us cs := by
  induction us with
  | nil => exact ⟨[], rfl, .nil⟩
  | cons u us ih =>
    obtain ⟨cs, h1, h2⟩ := ih (fun v hv => hu v (by simp [hv]))
    obtain ⟨c, h3, h4⟩ := framed_decode u (hu u (by simp)) (us.flatten ++ rest)
    refine ⟨c :: cs, ?_, .cons h4 h2⟩
    rw [List.flatten_cons, List.append_assoc, decodeAll_cons (by simp [framed_ne_nil u (hu u (by simp))]), h3]
    simp [h1]

end Verif.Utf8
