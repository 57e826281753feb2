import Verif.Model.ByteBuffer
import Verif.Spec.Ranges
import Verif.Proof.Utf8
import Mathlib.Data.List.Chain
/-!
# Lemmas on byte buffers
-/
namespace Verif.ByteBuffer
open Verif Verif.Spec

theorem cover_append (l a b : Nat) : cover l (a + b) = cover l a ++ cover (l + a) b := by
  simp [cover, List.range'_append_1]

theorem positions_append (a b : List Range) : positions (append a b) = positions a ++ positions b := by
  unfold append
  split
  · simp [positions]
  · rename_i v vs
    split
    · simp [positions]
    · rename_i b hb
      split
      · simp [positions]
      · rename_i h
        have h' : v.location = b.location + b.length := Classical.not_not.mp h
        obtain ⟨i, rfl⟩ := List.getLast?_eq_some_iff.mp hb
        simp [positions, cover_append, h']

theorem charLen_ascii (b : UInt8) : b < 0x80 → charLen b = 1 := forallU8 (P := fun b => b < 0x80 → charLen b = 1) (by decide +kernel) b
theorem charLen_2 (b : UInt8) : 0xC0 ≤ b → b < 0xE0 → charLen b = 2 :=
  forallU8 (P := fun b => 0xC0 ≤ b → b < 0xE0 → charLen b = 2) (by decide +kernel) b
theorem charLen_3 (b : UInt8) : 0xE0 ≤ b → b < 0xF0 → charLen b = 3 :=
  forallU8 (P := fun b => 0xE0 ≤ b → b < 0xF0 → charLen b = 3) (by decide +kernel) b
theorem charLen_4 (b : UInt8) : 0xF0 ≤ b → charLen b = 4 :=
  forallU8 (P := fun b => 0xF0 ≤ b → charLen b = 4) (by decide +kernel) b
theorem charLen_pos (b : UInt8) : 1 ≤ charLen b := by simp [charLen]

/-- The first byte of the encoding of a character announces its length. -/
theorem utf8_head (c : Nat) (h : Scalar c) (h0 : c ≠ 0) :
    ∃ b r, utf8 c = b :: r ∧ b ≠ 0 ∧ charLen b = r.length + 1 := by
  unfold utf8
  have hc : c < 0x110000 := by unfold Scalar at h; omega
  have nz : ∀ n : Nat, n % 256 ≠ 0 → n.toUInt8 ≠ 0 := by
    intro n hn he; have := congrArg UInt8.toNat he; rw [Utf8.toNat_toUInt8] at this; exact hn this
  split
  · refine ⟨_, _, rfl, nz _ (by omega), ?_⟩
    rw [charLen_ascii]; rfl
    rw [Utf8.lt_iff, Utf8.toNat_toUInt8]; show _ < 128; omega
  split
  · refine ⟨_, _, rfl, nz _ (by omega), ?_⟩
    rw [charLen_2]; rfl
    · rw [Utf8.le_iff, Utf8.toNat_toUInt8]; show 192 ≤ _; omega
    · rw [Utf8.lt_iff, Utf8.toNat_toUInt8]; show _ < 224; omega
  split
  · refine ⟨_, _, rfl, nz _ (by omega), ?_⟩
    rw [charLen_3]; rfl
    · rw [Utf8.le_iff, Utf8.toNat_toUInt8]; show 224 ≤ _; omega
    · rw [Utf8.lt_iff, Utf8.toNat_toUInt8]; show _ < 240; omega
  · refine ⟨_, _, rfl, nz _ (by omega), ?_⟩
    rw [charLen_4]; rfl
    rw [Utf8.le_iff, Utf8.toNat_toUInt8]; show 240 ≤ _; omega

/-- What the index should be from character number `k` on. -/
def indexFrom : Nat → List Nat → List Nat
  | _, [] => []
  | k, c :: cs => List.replicate (utf8 c).length k ++ indexFrom (k + 1) cs

theorem buildLoop_text (cs : List Nat) (h : ∀ c ∈ cs, Scalar c ∧ c ≠ 0) : ∀ k, buildLoop (utf8s cs) k = some (indexFrom k cs) := by
  induction cs with
  | nil => intro k; simp [utf8s, buildLoop, indexFrom]
  | cons c cs ih =>
    intro k
    obtain ⟨b, r, hu, hb, hl⟩ := utf8_head c (h c (by simp)).1 (h c (by simp)).2
    have hcons : utf8s (c :: cs) = b :: (r ++ utf8s cs) := by simp [utf8s, hu]
    rw [hcons, buildLoop, if_neg hb, hl]
    rw [if_neg (by simp)]
    simp only [Nat.add_sub_cancel, List.drop_left]
    rw [ih (fun d hd => h d (by simp [hd]))]
    simp [indexFrom, hu]

theorem indexFrom_length (cs : List Nat) : ∀ k, (indexFrom k cs).length = (utf8s cs).length := by
  induction cs with
  | nil => intro k; simp [utf8s, indexFrom]
  | cons c cs ih => intro k; simp [indexFrom, ih, utf8s]

theorem byteOffset_succ (c : Nat) (cs : List Nat) (k : Nat) :
    byteOffset (c :: cs) (k + 1) = (utf8 c).length + byteOffset cs k := by simp [byteOffset, utf8s]

theorem byteOffset_zero (cs : List Nat) : byteOffset cs 0 = 0 := by simp [byteOffset, utf8s]

theorem byteOffset_length (cs : List Nat) (k : Nat) (h : cs.length ≤ k) : byteOffset cs k = (utf8s cs).length := by
  simp [byteOffset, List.take_of_length_le h]

theorem utf8_pos (c : Nat) : 1 ≤ (utf8 c).length := by have := Utf8.utf8_ne_nil c; exact List.length_pos_iff.2 this

theorem byteOffset_lt (cs : List Nat) : ∀ k, k < cs.length → byteOffset cs k < byteOffset cs (k + 1) := by
  induction cs with
  | nil => intro k h; simp at h
  | cons c cs ih =>
    intro k h
    cases k with
    | zero => rw [byteOffset_zero, byteOffset_succ]; have := utf8_pos c; omega
    | succ k => rw [byteOffset_succ, byteOffset_succ]; have := ih k (by simpa using h); omega

theorem byteOffset_mono (cs : List Nat) (a b : Nat) (h : a ≤ b) : byteOffset cs a ≤ byteOffset cs b := by
  induction b with
  | zero => have : a = 0 := by omega
            subst this; exact Nat.le_refl _
  | succ b ih =>
    by_cases hb : a = b + 1
    · subst hb; exact Nat.le_refl _
    · have h1 := ih (by omega)
      by_cases hl : b < cs.length
      · have := byteOffset_lt cs b hl; omega
      · rw [byteOffset_length cs (b+1) (by omega), ← byteOffset_length cs b (by omega)]; exact h1

theorem byteOffset_lt' (cs : List Nat) (a b : Nat) (h : a < b) (hb : a < cs.length) : byteOffset cs a < byteOffset cs b :=
  Nat.lt_of_lt_of_le (byteOffset_lt cs a hb) (byteOffset_mono cs _ _ h)

theorem indexFrom_get (cs : List Nat) : ∀ (k j p : Nat), j < cs.length → byteOffset cs j ≤ p → p < byteOffset cs (j + 1) →
    (indexFrom k cs)[p]? = some (k + j) := by
  induction cs with
  | nil => intro k j p h; simp at h
  | cons c cs ih =>
    intro k j p hj h1 h2
    cases j with
    | zero =>
      rw [byteOffset_succ, byteOffset_zero] at h2
      rw [indexFrom, List.getElem?_append_left (by simpa using h2)]
      simp [List.getElem?_replicate]; simpa using h2
    | succ j =>
      rw [byteOffset_succ] at h1 h2
      rw [indexFrom, List.getElem?_append_right (by simp; omega)]
      simp only [List.length_replicate]
      rw [ih (k+1) j _ (by simpa using hj) (by omega) (by omega)]
      congr 1; omega

theorem strnlenLoop_text (cs : List Nat) (h : ∀ c ∈ cs, Scalar c ∧ c ≠ 0) : ∀ (tail : Bytes) (n j : Nat), n ≤ cs.length →
    (n = cs.length → tail ≠ []) →
    strnlenLoop (utf8s cs ++ tail) (byteOffset cs n) j = some (j + n) := by
  induction cs with
  | nil =>
    intro tail n j hn ht
    have : n = 0 := by simpa using hn
    subst this
    cases tail with
    | nil => exact absurd rfl (ht rfl)
    | cons t ts => simp [utf8s, byteOffset, strnlenLoop]
  | cons c cs ih =>
    intro tail n j hn ht
    obtain ⟨b, r, hu, hb, hl⟩ := utf8_head c (h c (by simp)).1 (h c (by simp)).2
    have hcons : utf8s (c :: cs) ++ tail = b :: (r ++ (utf8s cs ++ tail)) := by simp [utf8s, hu]
    rw [hcons, strnlenLoop]
    cases n with
    | zero => simp [byteOffset_zero]
    | succ n =>
      have hp := utf8_pos c
      rw [byteOffset_succ, if_pos ⟨hb, by omega⟩, hl]
      simp only [Nat.add_sub_cancel, List.drop_left]
      have : (utf8 c).length + byteOffset cs n - (r.length + 1) = byteOffset cs n := by rw [hu]; simp
      rw [this, ih (fun d hd => h d (by simp [hd])) tail n (j+1) (by simpa using hn) (fun e => ht (by simp [e]))]
      congr 1; omega

/-- The same for a length that reaches beyond the end of the text. -/
theorem strnlenLoop_over (cs : List Nat) (h : ∀ c ∈ cs, Scalar c ∧ c ≠ 0) : ∀ (len j : Nat), (utf8s cs).length ≤ len →
    strnlenLoop (utf8s cs ++ [0]) len j = some (j + cs.length) := by
  induction cs with
  | nil => intro len j _; simp [utf8s, strnlenLoop]
  | cons c cs ih =>
    intro len j hlen
    obtain ⟨b, r, hu, hb, hl⟩ := utf8_head c (h c (by simp)).1 (h c (by simp)).2
    have hcons : utf8s (c :: cs) ++ [0] = b :: (r ++ (utf8s cs ++ [0])) := by simp [utf8s, hu]
    have hle : (utf8s (c :: cs)).length = r.length + 1 + (utf8s cs).length := by simp [utf8s, hu]; omega
    rw [hcons, strnlenLoop, if_pos ⟨hb, by omega⟩, hl]
    simp only [Nat.add_sub_cancel, List.drop_left]
    rw [ih (fun d hd => h d (by simp [hd])) _ _ (by omega)]
    simp; omega

theorem append_cases (a b : List Range) :
    (append a b = a ++ b ∧ ¬ ∃ a' x y b', a = a' ++ [x] ∧ b = y :: b' ∧ y.location = x.location + x.length) ∨
    (∃ a' x y b', a = a' ++ [x] ∧ b = y :: b' ∧ y.location = x.location + x.length ∧
      append a b = a' ++ ⟨x.location, x.length + y.length⟩ :: b') := by
  unfold append
  split
  · left; simp
  · rename_i v vs
    split
    · rename_i hn; left
      have : a = [] := List.getLast?_eq_none_iff.1 hn
      subst this; simp
    · rename_i l hl
      obtain ⟨i, rfl⟩ := List.getLast?_eq_some_iff.mp hl
      split
      · rename_i hne; left
        refine ⟨rfl, ?_⟩
        rintro ⟨a', x, y, b', h1, h2, h3⟩
        have hx := congrArg List.getLast? h1
        simp at hx h2
        obtain ⟨rfl, rfl⟩ := h2; subst hx; exact hne h3
      · rename_i he; right
        exact ⟨i, l, v, vs, rfl, rfl, Classical.not_not.mp he, by simp⟩

theorem separated_append (a b : List Range) (ha : Separated a) (hb : Separated b) : Separated (append a b) := by
  unfold Separated at *
  rcases append_cases a b with ⟨he, hn⟩ | ⟨a', x, y, b', rfl, rfl, hadj, he⟩
  · rw [he]
    rw [List.isChain_append]
    refine ⟨ha, hb, ?_⟩
    intro x hx y hy hadj
    apply hn
    obtain ⟨i, rfl⟩ := List.getLast?_eq_some_iff.mp hx
    cases b with
    | nil => simp at hy
    | cons y' b => simp at hy; subst hy; exact ⟨_, _, _, _, rfl, rfl, hadj⟩
  · rw [he]
    rw [List.isChain_append] at ha ⊢
    refine ⟨ha.1, ?_, ?_⟩
    · cases b' with
      | nil => simp
      | cons z b' =>
        rw [List.isChain_cons_cons] at hb ⊢
        refine ⟨?_, hb.2⟩
        have := hb.1
        simp only; omega
    · intro p hp q hq
      simp at hq; subst hq
      exact ha.2.2 p hp x (by simp)

theorem mapLoop_ok (buf : Bytes) (rs : List Range) (h : ∀ r ∈ rs, r.location + r.length ≤ buf.length) : ∀ acc,
    mapLoop buf rs acc = acc ++ rs.flatMap (fun r => (buf.drop r.location).take r.length) := by
  induction rs with
  | nil => intro acc; simp [mapLoop]
  | cons r rs ih =>
    intro acc
    rw [mapLoop, if_neg (by have := h r (by simp); omega), ih (fun x hx => h x (by simp [hx]))]
    simp

theorem slice_cover (buf : Bytes) (loc len : Nat) (h : loc + len ≤ buf.length) :
    (buf.drop loc).take len = (cover loc len).filterMap (fun p => buf[p]?) := by
  induction len generalizing loc with
  | zero => simp [cover]
  | succ n ih =>
    rw [cover, List.range'_succ, List.filterMap_cons]
    rw [List.getElem?_eq_getElem (by omega)]
    simp only
    rw [← cover, ← ih (loc+1) (by omega), List.drop_eq_getElem_cons (by omega), List.take_succ_cons]

theorem announced_eq (b : UInt8) : charLen b = announced b :=
  forallU8 (P := fun b => charLen b = announced b) (by decide +kernel) b

theorem truncated_cons (b : UInt8) (u s : Bytes) (hb : b ≠ 0) (hu : announced b = u.length + 1) :
    TruncatedTail (b :: (u ++ s)) ↔ TruncatedTail s := by
  constructor
  · rintro ⟨us, x, t, h1, h2, h3, h4⟩
    cases us with
    | nil =>
      simp at h1
      obtain ⟨rfl, h1⟩ := h1
      have := congrArg List.length h1
      simp at this; omega
    | cons w us =>
      obtain ⟨y, v, rfl, hy, hv⟩ := h2 w (by simp)
      simp at h1
      obtain ⟨rfl, h1⟩ := h1
      have hl : u.length = v.length := by omega
      have := List.append_inj h1 hl
      exact ⟨us, x, t, this.2, fun w hw => h2 w (by simp [hw]), h3, h4⟩
  · rintro ⟨us, x, t, h1, h2, h3, h4⟩
    refine ⟨(b :: u) :: us, x, t, by simp [h1], ?_, h3, h4⟩
    intro w hw
    rcases List.mem_cons.1 hw with rfl | hw
    · exact ⟨b, u, rfl, hb, hu⟩
    · exact h2 w hw

theorem buildLoop_none (n : Nat) : ∀ (s : Bytes), s.length ≤ n → ∀ k, buildLoop s k = none ↔ TruncatedTail s := by
  induction n with
  | zero =>
    intro s hs k
    have : s = [] := List.length_eq_zero_iff.1 (by omega)
    subst this
    simp [buildLoop, TruncatedTail]
  | succ n ih =>
    intro s hs k
    cases s with
    | nil => simp [buildLoop, TruncatedTail]
    | cons b r =>
      rw [buildLoop]
      by_cases hb : b = 0
      · subst hb
        simp only [if_pos]
        constructor
        · simp
        · rintro ⟨us, x, t, h1, h2, h3, h4⟩
          cases us with
          | nil => simp at h1; exact absurd h1.1.symm h3
          | cons w us =>
            obtain ⟨y, v, rfl, hy, hv⟩ := h2 w (by simp)
            simp at h1; exact absurd h1.1.symm hy
      · rw [if_neg hb]
        have hp := charLen_pos b
        by_cases hl : r.length + 1 < charLen b
        · rw [if_pos hl]
          simp only [true_iff]
          exact ⟨[], b, r, by simp, by simp, hb, by rw [← announced_eq]; exact hl⟩
        · rw [if_neg hl, Option.map_eq_none_iff, ih _ (by simp at hs ⊢; omega)]
          have he : b :: r = b :: (r.take (charLen b - 1) ++ r.drop (charLen b - 1)) := by rw [List.take_append_drop]
          rw [he, truncated_cons b _ _ hb (by rw [← announced_eq]; simp; omega)]

end Verif.ByteBuffer
