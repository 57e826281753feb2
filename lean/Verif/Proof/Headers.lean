import Verif.Model.Headers
import Verif.Proof.Signature
import Verif.Spec.Headers
/-! Proofs about headers. -/
namespace Verif.Headers
open Verif Verif.Text Verif.Spec

theorem validTokenChar_iff {c : UInt8} : validTokenChar c = true ↔ TokenChar c ∧ c ≠ asc '!' := by
  exact forallU8 (P := fun c => validTokenChar c = true ↔ TokenChar c ∧ c ≠ asc '!')
    (by unfold TokenChar Spec.isDigit Spec.isAlpha; decide +kernel) c

theorem tokenChar_name {c : UInt8} (h : TokenChar c) : c ≠ asc ':' ∧ c ≠ asc ' ' ∧ c ≠ asc '\t' := by
  revert h
  exact forallU8 (P := fun c => TokenChar c → c ≠ asc ':' ∧ c ≠ asc ' ' ∧ c ≠ asc '\t')
    (by unfold TokenChar Spec.isDigit Spec.isAlpha; decide +kernel) c

theorem toLower_iff {a b : UInt8} : toLower a = toLower b ↔ CaseEqChar a b := by
  have ha := a.toNat_lt
  have hb := b.toNat_lt
  have e1 : (asc 'A').toNat = 65 := by decide
  have e2 : (asc 'Z').toNat = 90 := by decide
  unfold toLower CaseEqChar
  simp only [UInt8.le_iff_toNat_le, e1, e2, ← UInt8.toNat_inj]
  split <;> split <;> (try simp only [UInt8.toNat_add, show (32 : UInt8).toNat = 32 from rfl]) <;> omega

theorem iEqual_iff : ∀ {a b : Bytes}, iEqual a b = true ↔ CaseEq a b
  | [], [] => by simp [iEqual, CaseEq]
  | [], _ :: _ => by simp [iEqual, CaseEq]
  | _ :: _, [] => by simp [iEqual, CaseEq]
  | a :: s, b :: t => by
    have ih := iEqual_iff (a := s) (b := t)
    simp only [iEqual, beq_iff_eq, List.map_cons, List.cons.injEq, CaseEq, toLower_iff] at ih ⊢
    rw [ih]

theorem takeWhile_all {α} {p : α → Bool} {a b : List α} (h : ∀ c ∈ a, p c = true) (hb : ∀ c, b.head? = some c → p c = false) :
    (a ++ b).takeWhile p = a := by
  rw [List.takeWhile_append_of_pos h]
  cases b with
  | nil => simp
  | cons c b => simp [List.takeWhile_cons, hb c rfl]

theorem dropWhile_all {α} {p : α → Bool} {a b : List α} (h : ∀ c ∈ a, p c = true) (hb : ∀ c, b.head? = some c → p c = false) :
    (a ++ b).dropWhile p = b := by
  rw [dropWhile_append_all h, dropWhile_head hb]

/-- Without a NUL, the captures are the parts of the line. -/
theorem captures_iff {line name : Bytes} {x : Bytes × Bytes} (h0 : (0 : UInt8) ∉ line) :
    captures line = some (name, x) ↔ ∃ post, HasName line name post ∧
      ((∃ a b s, Spaces a ∧ Spaces s ∧ post = a ++ asc ':' :: (s ++ b) ∧ b.head? ≠ some (asc ' ') ∧ x = (a ++ asc ':' :: s, b)) ∨
       (∃ a b, Spaces a ∧ post = a ++ b ∧ b.head? ≠ some (asc ':') ∧ b.head? ≠ some (asc ' ') ∧ x = (a, b))) := by
  have hline : line.takeWhile (· ≠ 0) = line := by
    have := takeWhile_all (p := fun c : UInt8 => decide (c ≠ 0)) (a := line) (b := []) (by
      intro c hc; simp; rintro rfl; exact h0 hc) (by simp)
    simpa using this
  unfold captures
  rw [hline]
  dsimp only
  have hpre : line = line.takeWhile (· = asc ' ') ++ line.dropWhile (· = asc ' ') := List.takeWhile_append_dropWhile.symm
  have hpre1 : Spaces (line.takeWhile (· = asc ' ')) := fun c hc => by simpa using mem_takeWhile_imp hc
  have hs1 : ∀ c, (line.dropWhile (· = asc ' ')).head? = some c → c ≠ asc ' ' := fun c hc => by simpa using head_dropWhile hc
  constructor
  · intro h
    generalize line.takeWhile (· = asc ' ') = pre at hpre hpre1
    generalize line.dropWhile (· = asc ' ') = s at hpre hs1 h
    generalize hn : s.takeWhile (fun c => decide (c ≠ asc ':') && decide (c ≠ asc ' ') && decide (c ≠ asc '\t')) = n at h
    have hn1 : ∀ c ∈ n, c ≠ asc ':' ∧ c ≠ asc ' ' ∧ c ≠ asc '\t' := by
      intro c hc; rw [← hn] at hc; simpa [and_assoc] using mem_takeWhile_imp hc
    have hns : s = n ++ s.dropWhile (fun c => decide (c ≠ asc ':') && decide (c ≠ asc ' ') && decide (c ≠ asc '\t')) := by
      rw [← hn]; exact List.takeWhile_append_dropWhile.symm
    have hr : s.drop n.length = s.dropWhile (fun c => decide (c ≠ asc ':') && decide (c ≠ asc ' ') && decide (c ≠ asc '\t')) := by
      conv => lhs; rw [hns]
      simp
    have hr1 : ∀ c, (s.drop n.length).head? = some c → c = asc ':' ∨ c = asc ' ' ∨ c = asc '\t' := by
      intro c hc
      rw [hr] at hc
      have := head_dropWhile hc
      simp only [Bool.and_eq_false_iff, decide_eq_false_iff_not, ne_eq, Decidable.not_not, or_assoc] at this
      exact this
    rw [← hr] at hns
    generalize s.drop n.length = r at h hns hr1
    split at h
    · cases h
    · rename_i hne
      have hname : HasName line n r := ⟨⟨pre, hpre1, by rw [hpre, hns]; simp⟩, hne, hn1, hr1⟩
      have hsp : r = r.takeWhile (· = asc ' ') ++ r.dropWhile (· = asc ' ') := List.takeWhile_append_dropWhile.symm
      have hsp1 : Spaces (r.takeWhile (· = asc ' ')) := fun c hc => by simpa using mem_takeWhile_imp hc
      have hsp2 : ∀ c, (r.dropWhile (· = asc ' ')).head? = some c → c ≠ asc ' ' := fun c hc => by simpa using head_dropWhile hc
      have hd : r.drop (r.takeWhile (· = asc ' ')).length = r.dropWhile (· = asc ' ') := by
        have := congrArg (List.drop (r.takeWhile (· = asc ' ')).length) hsp
        rw [this]; exact List.drop_left
      rw [hd] at h
      generalize r.takeWhile (· = asc ' ') = sp at h hsp hsp1
      generalize r.dropWhile (· = asc ' ') = q at h hsp hsp2
      split at h
      · rename_i c r'
        split at h
        · rename_i hc
          cases h
          refine ⟨r, hname, .inl ⟨sp, r'.dropWhile (· = asc ' '), r'.takeWhile (· = asc ' '), hsp1,
            fun c hc => by simpa using mem_takeWhile_imp hc, ?_, ?_, ?_⟩⟩
          · rw [List.takeWhile_append_dropWhile, hsp, hc]
          · intro h; simpa using head_dropWhile h
          · simp [hc]
        · rename_i hc
          cases h
          refine ⟨r, hname, .inr ⟨sp, c :: r', hsp1, hsp, by simpa using hc, ?_, rfl⟩⟩
          intro h; exact hsp2 _ h rfl
      · cases h
        exact ⟨r, hname, .inr ⟨sp, [], hsp1, hsp, by simp, by simp, rfl⟩⟩
  · rintro ⟨post, ⟨⟨a, ha, hl⟩, hne, hn, hp⟩, h⟩
    have hhead : ∀ c, (name ++ post).head? = some c → decide (c = asc ' ') = false := by
      intro c hc
      cases name with
      | nil => exact absurd rfl hne
      | cons d name => simp at hc; subst hc; simpa using (hn d (by simp)).2.1
    have h1 : line.dropWhile (· = asc ' ') = name ++ post := by
      rw [hl, List.append_assoc]
      exact dropWhile_all (fun c hc => by simpa using ha c hc) hhead
    rw [h1, takeWhile_all (a := name) (b := post) (by intro c hc; simpa [and_assoc] using hn c hc) (by
      intro c hc
      rcases hp c hc with rfl | rfl | rfl <;> decide)]
    rw [if_neg hne]
    simp only [List.drop_left]
    rcases h with ⟨a', b, s, ha', hs', rfl, hb, rfl⟩ | ⟨a', b, ha', rfl, hb1, hb2, rfl⟩
    · have h2 : (a' ++ asc ':' :: (s ++ b)).takeWhile (· = asc ' ') = a' :=
        takeWhile_all (fun c hc => by simpa using ha' c hc) (by intro c hc; simp at hc; subst hc; decide)
      rw [h2]
      simp only [List.drop_left]
      have h3 : (s ++ b).takeWhile (· = asc ' ') = s :=
        takeWhile_all (fun c hc => by simpa using hs' c hc) (by intro c hc; simp; rintro rfl; exact hb hc)
      have h4 : (s ++ b).dropWhile (· = asc ' ') = b :=
        dropWhile_all (fun c hc => by simpa using hs' c hc) (by intro c hc; simp; rintro rfl; exact hb hc)
      simp [h3, h4]
    · have h2 : (a' ++ b).takeWhile (· = asc ' ') = a' :=
        takeWhile_all (fun c hc => by simpa using ha' c hc) (by intro c hc; simp; rintro rfl; exact hb2 hc)
      rw [h2]
      simp only [List.drop_left]
      cases b with
      | nil => rfl
      | cons c b =>
        have : c ≠ asc ':' := by rintro rfl; simp at hb1
        simp [this]

theorem hasName_unique {line n p n' p' : Bytes} (h : HasName line n p) (h' : HasName line n' p') : n = n' ∧ p = p' := by
  have aux : ∀ {n p}, HasName line n p →
      (line.dropWhile (· = asc ' ')).takeWhile (fun c => decide (c ≠ asc ':') && decide (c ≠ asc ' ') && decide (c ≠ asc '\t')) = n ∧
      (line.dropWhile (· = asc ' ')) = n ++ p := by
    rintro n p ⟨⟨a, ha, hl⟩, hne, hn, hp⟩
    have hhead : ∀ c, (n ++ p).head? = some c → decide (c = asc ' ') = false := by
      intro c hc
      cases n with
      | nil => exact absurd rfl hne
      | cons d n => simp at hc; subst hc; simpa using (hn d (by simp)).2.1
    have h1 : line.dropWhile (· = asc ' ') = n ++ p := by
      rw [hl, List.append_assoc]
      exact dropWhile_all (fun c hc => by simpa using ha c hc) hhead
    rw [h1]
    exact ⟨takeWhile_all (by intro c hc; simpa [and_assoc] using hn c hc) (by
      intro c hc
      rcases hp c hc with rfl | rfl | rfl <;> decide), rfl⟩
  obtain ⟨h1, h2⟩ := aux h
  obtain ⟨h3, h4⟩ := aux h'
  rw [h1] at h3
  subst h3
  rw [h2] at h4
  exact ⟨rfl, List.append_cancel_left h4⟩

theorem spaces_blank {a : Bytes} (h : Spaces a) : Blank a := fun c hc => by rw [h c hc]; unfold White; decide

theorem colon_dropWhile {p b : Bytes} (h : Colon p b) : p.dropWhile (· = asc ' ') = asc ':' :: b := by
  obtain ⟨a, ha, rfl⟩ := h
  exact dropWhile_all (fun c hc => by simpa using ha c hc) (by intro c hc; simp at hc; subst hc; decide)

theorem hasValue_iff {post v : Bytes} {x : Bytes × Bytes}
    (h : (∃ a b s, Spaces a ∧ Spaces s ∧ post = a ++ asc ':' :: (s ++ b) ∧ b.head? ≠ some (asc ' ') ∧ x = (a ++ asc ':' :: s, b)) ∨
       (∃ a b, Spaces a ∧ post = a ++ b ∧ b.head? ≠ some (asc ':') ∧ b.head? ≠ some (asc ' ') ∧ x = (a, b))) :
    HasValue post v ↔ v = trim x.2 := by
  rcases h with ⟨a, b, s, ha, hs, rfl, hb, rfl⟩ | ⟨a, b, ha, rfl, hb1, hb2, rfl⟩
  · have hc : Colon (a ++ asc ':' :: (s ++ b)) (s ++ b) := ⟨a, ha, rfl⟩
    constructor
    · rintro (⟨b', hb', ht⟩ | ⟨hn, _⟩)
      · have := (colon_dropWhile hb').symm.trans (colon_dropWhile hc)
        simp at this; subst this
        rw [← trim_unique ht, Signature.trim_append_left (spaces_blank hs)]
      · exact absurd hc (hn _)
    · rintro rfl
      exact .inl ⟨_, hc, by rw [← Signature.trim_append_left (spaces_blank hs)]; exact trim_spec _⟩
  · have hn : ∀ b', ¬ Colon (a ++ b) b' := by
      intro b' h'
      have h1 := colon_dropWhile h'
      have h2 : (a ++ b).dropWhile (· = asc ' ') = b :=
        dropWhile_all (fun c hc => by simpa using ha c hc) (by intro c hc; simp; rintro rfl; exact hb2 hc)
      rw [h2] at h1
      exact hb1 (by rw [h1]; rfl)
    constructor
    · rintro (⟨b', hb', _⟩ | ⟨_, ht⟩)
      · exact absurd hb' (hn _)
      · rw [← trim_unique ht, Signature.trim_append_left (spaces_blank ha)]
    · rintro rfl
      exact .inr ⟨hn, by rw [← Signature.trim_append_left (spaces_blank ha)]; exact trim_spec _⟩

theorem captures_exists {line name post : Bytes} (h0 : (0 : UInt8) ∉ line) (h : HasName line name post) :
    ∃ x, captures line = some (name, x) := by
  have hsp : post = post.takeWhile (· = asc ' ') ++ post.dropWhile (· = asc ' ') := List.takeWhile_append_dropWhile.symm
  have hsp1 : Spaces (post.takeWhile (· = asc ' ')) := fun c hc => by simpa using mem_takeWhile_imp hc
  have hsp2 : ∀ c, (post.dropWhile (· = asc ' ')).head? = some c → c ≠ asc ' ' := fun c hc => by simpa using head_dropWhile hc
  by_cases hb : (post.dropWhile (· = asc ' ')).head? = some (asc ':')
  · obtain ⟨r, hr⟩ : ∃ r, post.dropWhile (· = asc ' ') = asc ':' :: r := by
      cases hd : post.dropWhile (· = asc ' ') with
      | nil => rw [hd] at hb; simp at hb
      | cons c r => rw [hd] at hb; simp at hb; exact ⟨r, by rw [hb]⟩
    refine ⟨_, (captures_iff h0).2 ⟨post, h, .inl ⟨_, r.dropWhile (· = asc ' '), r.takeWhile (· = asc ' '), hsp1,
      fun c hc => by simpa using mem_takeWhile_imp hc, ?_, ?_, rfl⟩⟩⟩
    · rw [List.takeWhile_append_dropWhile, ← hr]; exact hsp
    · intro h; simpa using head_dropWhile h
  · refine ⟨_, (captures_iff h0).2 ⟨post, h, .inr ⟨_, _, hsp1, hsp, hb, fun h => hsp2 _ h rfl, rfl⟩⟩⟩

theorem captures_none {line : Bytes} (h0 : (0 : UInt8) ∉ line) : captures line = none ↔ ∀ n p, ¬ HasName line n p := by
  constructor
  · intro h n p hn
    obtain ⟨x, hx⟩ := captures_exists h0 hn
    rw [h] at hx; cases hx
  · intro h
    cases hc : captures line with
    | none => rfl
    | some x =>
      obtain ⟨p, hp, _⟩ := (captures_iff h0 (name := x.1) (x := x.2)).1 hc
      exact absurd hp (h _ _)

theorem validName_iff {n : Bytes} (hn : n ≠ []) : validName n = true ↔ Token n ∧ asc '!' ∉ n := by
  unfold validName Token
  rw [List.all_eq_true]
  constructor
  · intro h
    refine ⟨⟨hn, fun c hc => (validTokenChar_iff.1 (h c hc)).1⟩, fun hm => (validTokenChar_iff.1 (h _ hm)).2 rfl⟩
  · rintro ⟨⟨_, h⟩, hm⟩ c hc
    exact validTokenChar_iff.2 ⟨h c hc, by rintro rfl; exact hm hc⟩

/-- A line is accepted iff its name is valid. -/
theorem accepted_iff {hs : List Header} {line n v : Bytes} (h0 : (0 : UInt8) ∉ line) :
    (parseHeaderLine hs line).1 = some (n, v) ↔ ∃ post, HasName line n post ∧ HasValue post v ∧ Token n ∧ asc '!' ∉ n := by
  unfold parseHeaderLine
  cases hc : captures line with
  | none =>
    simp only [reduceCtorEq, false_iff]
    rintro ⟨p, hp, _⟩
    exact (captures_none h0).1 hc _ _ hp
  | some x =>
    obtain ⟨m, y⟩ := x
    obtain ⟨p, hp, hy⟩ := (captures_iff h0).1 hc
    dsimp only
    split
    · rename_i hv
      simp only [reduceCtorEq, false_iff]
      rintro ⟨p', hp', _, ht⟩
      obtain ⟨rfl, _⟩ := hasName_unique hp hp'
      rw [(validName_iff hp.2.1).2 ht] at hv; simp at hv
    · rename_i hv
      simp only [Bool.not_eq_true, Bool.not_eq_false', Bool.not_eq_eq_eq_not, Bool.not_true, Bool.not_false] at hv
      simp only [Option.some.injEq, Prod.mk.injEq]
      constructor
      · rintro ⟨rfl, h⟩
        exact ⟨p, hp, (hasValue_iff hy).2 h.symm, (validName_iff hp.2.1).1 (by simpa using hv)⟩
      · rintro ⟨p', hp', hv', _⟩
        obtain ⟨rfl, rfl⟩ := hasName_unique hp hp'
        exact ⟨rfl, ((hasValue_iff hy).1 hv').symm⟩

theorem accepted_headers (hs : List Header) (line : Bytes) : (parseHeaderLine hs line).1 = (parseHeaderLine [] line).1 := by
  unfold parseHeaderLine
  split
  · rfl
  · dsimp only
    split <;> rfl

theorem rejected_warns {hs : List Header} {line : Bytes} (h : (parseHeaderLine hs line).1 = none) : (parseHeaderLine hs line).2 ≠ [] := by
  unfold parseHeaderLine at h ⊢
  split
  · simp
  · rename_i hc
    rw [hc] at h
    dsimp only at h ⊢
    split
    · simp
    · rename_i hv; rw [if_neg hv] at h; cases h

theorem lines_headers (ls : List Bytes) : ∀ out, (ls.foldl addLine out).1 = out.1 ++ ls.filterMap fun l => (parseHeaderLine [] l).1 := by
  induction ls with
  | nil => simp
  | cons l ls ih =>
    intro out
    rw [List.foldl_cons, ih, addLine, accepted_headers, List.filterMap_cons]
    cases (parseHeaderLine [] l).1 <;> simp

theorem duplicate_mem {hs : List Header} {line n v m : Bytes} (h : (parseHeaderLine hs line).1 = some (n, v)) :
    Warning.duplicate m ∈ (parseHeaderLine hs line).2 ↔
      m = n ∧ (∃ x ∈ hs, CaseEq x.1 n) ∧ ¬ CaseEq n (str "Set-Cookie") ∧ ¬ CaseEq n (str "Link") := by
  unfold parseHeaderLine at h ⊢
  split
  · rename_i hc; rw [hc] at h; cases h
  · rename_i name colon value hc
    rw [hc] at h
    dsimp only at h ⊢
    split
    · rename_i hv; rw [if_pos hv] at h; cases h
    · rename_i hv
      rw [if_neg hv] at h
      cases h
      simp only [List.mem_append]
      have h1 : ¬ Warning.duplicate m ∈ (if colon.contains (asc ':') = true then [] else [Warning.missingColon n]) := by split <;> simp
      have h2 : ¬ Warning.duplicate m ∈ (if List.isEmpty (trim value) = true then [Warning.noValue n] else []) := by split <;> simp
      have h3 : (!isDefined hs (n, trim value) || allowedMultiple (n, trim value)) = true ↔
          ¬ ((∃ x ∈ hs, CaseEq x.1 n) ∧ ¬ CaseEq n (str "Set-Cookie") ∧ ¬ CaseEq n (str "Link")) := by
        simp only [isDefined, allowedMultiple, Bool.or_eq_true, Bool.not_eq_eq_eq_not, Bool.not_true, List.any_cons, List.any_nil,
          Bool.or_false, iEqual_iff]
        rw [← Bool.not_eq_true, List.any_eq_true]
        simp only [iEqual_iff]
        constructor
        · rintro (h | h | h) ⟨g1, g2, g3⟩
          · exact h g1
          · exact g2 h
          · exact g3 h
        · intro h
          by_cases g1 : ∃ x ∈ hs, CaseEq x.1 n
          · by_cases g2 : CaseEq n (str "Set-Cookie")
            · exact .inr (.inl g2)
            · by_cases g3 : CaseEq n (str "Link")
              · exact .inr (.inr g3)
              · exact absurd ⟨g1, g2, g3⟩ h
          · exact .inl g1
      simp only [h1, h2, false_or, or_false]
      split
      · rename_i hd
        rw [h3] at hd
        simp only [List.not_mem_nil, false_iff]
        exact fun h => hd h.2
      · rename_i hd
        rw [h3, Classical.not_not] at hd
        simp only [List.mem_singleton, Warning.duplicate.injEq]
        exact ⟨fun h => ⟨h, hd⟩, fun h => h.1⟩

theorem duplicate_accepted {hs : List Header} {line m : Bytes} (h : Warning.duplicate m ∈ (parseHeaderLine hs line).2) :
    ∃ v, (parseHeaderLine hs line).1 = some (m, v) := by
  cases hp : (parseHeaderLine hs line).1 with
  | some x =>
    obtain ⟨n, v⟩ := x
    obtain ⟨rfl, _⟩ := (duplicate_mem hp).1 h
    exact ⟨v, rfl⟩
  | none =>
    exfalso
    unfold parseHeaderLine at hp h
    split at h
    · simp at h
    · rename_i hc
      rw [hc] at hp
      dsimp only at h hp
      split at h
      · simp at h
      · rename_i hv; rw [if_neg hv] at hp; cases hp

theorem fetchLine_spec {input : Bytes} {loc len : Nat} (h : loc + len ≤ input.length) (hb : ¬ Blank ((input.drop loc).take len)) :
    fetchLine input loc len = some (trim ((input.drop loc).take len)) := by
  obtain ⟨f, n, h1, h2, h3⟩ := trimInfo_spec hb
  unfold fetchLine
  rw [if_neg (by omega), h1]
  dsimp only
  rw [if_neg (by omega), if_neg (by omega)]
  rw [← h2]
  simp only [Int.toNat_natCast, List.drop_take, List.drop_drop, List.take_take]
  congr 2
  have := congrArg List.length h2
  have h5 := congrArg Prod.snd h1
  have h6 := congrArg Prod.fst h1
  simp [trimInfo] at h5 h6
  omega

end Verif.Headers
