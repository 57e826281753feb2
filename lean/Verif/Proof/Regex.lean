import Verif.Spec.Regex
import Verif.Model.Text

namespace Verif.Regex
open Verif.Spec.Regex

theorem mem_splits {s : Bytes} {x : Bytes × Bytes} : x ∈ splits s ↔ s = x.1 ++ x.2 := by
  unfold splits
  simp only [List.mem_reverse, List.mem_map, List.mem_range]
  constructor
  · rintro ⟨k, _, rfl⟩; simp
  · intro h
    refine ⟨x.1.length, by rw [h]; simp; omega, ?_⟩
    rw [h]; simp

theorem inClass_iff {neg ranges c} : inClass neg ranges c = true ↔ OneOf neg ranges c := by
  unfold inClass OneOf
  cases neg <;> simp

/-- The first cut that is found has the longest first part. -/
theorem find_splits {s : Bytes} {f : Bytes × Bytes → Bool} {x} (h : (splits s).find? f = some x) :
    s = x.1 ++ x.2 ∧ f x = true ∧ ∀ y, s = y.1 ++ y.2 → f y = true → y.1.length ≤ x.1.length := by
  have hx := List.find?_some h
  have hm := mem_splits.mp (List.mem_of_find?_eq_some h)
  refine ⟨hm, hx, ?_⟩
  intro y hy hfy
  have h2 := h
  unfold splits at h2
  rw [← List.map_reverse, List.find?_map] at h2
  simp only [Option.map_eq_some_iff] at h2
  obtain ⟨k, hk, rfl⟩ := h2
  rw [List.find?_eq_some_iff_append] at hk
  obtain ⟨hfk, as, bs, hab, has⟩ := hk
  have hmem : y.1.length ∈ (List.range (s.length + 1)).reverse := by
    rw [List.mem_reverse, List.mem_range, hy]; simp; omega
  have hkr : k ∈ (List.range (s.length + 1)).reverse := by rw [hab]; simp
  have hyk : (s.take y.1.length, s.drop y.1.length) = y := by rw [hy]; simp
  rw [List.mem_reverse, List.mem_range] at hkr
  have hlen : (s.take k).length = k := by simp; omega
  rw [hlen]
  rw [hab, List.mem_append] at hmem
  rcases hmem with hin | hin
  · have := has _ hin
    simp only [Function.comp, hyk, hfy] at this
    simp at this
  · have hp : List.Pairwise (· > ·) (List.range (s.length + 1)).reverse := by
      rw [List.pairwise_reverse]; exact List.pairwise_lt_range
    rw [hab, List.pairwise_append] at hp
    have := hp.2.1
    rw [List.pairwise_cons] at this
    rcases List.mem_cons.mp hin with he | he
    · omega
    · have := this.1 _ he; omega

theorem find_splits_none {s : Bytes} {f : Bytes × Bytes → Bool} :
    (splits s).find? f = none ↔ ∀ x, s = x.1 ++ x.2 → f x = false := by
  rw [List.find?_eq_none]
  constructor
  · intro h x hx; simpa using h x (mem_splits.mpr hx)
  · intro h x hx; simpa using h x (mem_splits.mp hx)

theorem accStar_iff {p : Bytes → Bool} {a : Rx} (hp : ∀ s, p s = true ↔ Lang a s) :
    ∀ n s, s.length ≤ n → (accStar p n s = true ↔ Lang (.star a) s)
  | n, [], _ => by simp [accStar]; exact .none
  | 0, _ :: _, h => by simp at h
  | n + 1, c :: s, h => by
    have key : ∀ r t, Lang r t → r = Rx.star a → t ≠ [] →
        ∃ x y, t = x ++ y ∧ x ≠ [] ∧ Lang a x ∧ Lang (.star a) y := by
      intro r t ht
      induction ht with
      | @more a' x y hx hy _ ihy =>
        intro he hne
        cases he
        by_cases hx0 : x = []
        · subst hx0
          obtain ⟨u, v, h1, h2, h3, h4⟩ := ihy rfl (by simpa using hne)
          exact ⟨u, v, by simpa using h1, h2, h3, h4⟩
        · exact ⟨x, y, rfl, hx0, hx, hy⟩
      | none => intro _ h; exact absurd rfl h
      | _ => intro he; cases he
    rw [accStar, List.any_eq_true]
    · constructor
      · rintro ⟨x, hx, hh⟩
        simp only [Bool.and_eq_true, Bool.not_eq_true', List.isEmpty_eq_false_iff] at hh
        have hs := mem_splits.mp hx
        rw [hs]
        refine .more ((hp _).mp hh.1.2) ((accStar_iff hp n x.2 ?_).mp hh.2)
        have : (c :: s).length = x.1.length + x.2.length := by rw [hs]; simp
        have : 0 < x.1.length := List.length_pos_iff.mpr hh.1.1
        simp only [List.length_cons] at *; omega
      · intro hl
        obtain ⟨x, y, hxy, hne, hx, hy⟩ := key _ _ hl rfl (by simp)
        refine ⟨(x, y), mem_splits.mpr hxy, ?_⟩
        simp only [Bool.and_eq_true, Bool.not_eq_true', List.isEmpty_eq_false_iff]
        refine ⟨⟨hne, (hp _).mpr hx⟩, (accStar_iff hp n y ?_).mpr hy⟩
        have : (c :: s).length = x.length + y.length := by rw [hxy]; simp
        have : 0 < x.length := List.length_pos_iff.mpr hne
        simp only [List.length_cons] at *; omega
    · intro h; cases h

theorem acc_iff (r : Rx) : ∀ s, acc r s = true ↔ Lang r s := by
  induction r with
  | eps => intro s; simp only [acc, List.isEmpty_iff]; exact ⟨fun h => h ▸ .eps, fun h => by cases h; rfl⟩
  | cls neg ranges =>
    intro s
    constructor
    · intro h
      match s, h with
      | [c], h => exact .cls (inClass_iff.mp h)
    · intro h; cases h; exact inClass_iff.mpr ‹_›
  | seq a b iha ihb =>
    intro s
    simp only [acc, List.any_eq_true, Bool.and_eq_true]
    constructor
    · rintro ⟨x, hx, h1, h2⟩
      rw [mem_splits.mp hx]; exact .seq ((iha _).mp h1) ((ihb _).mp h2)
    · intro h
      cases h with
      | seq h1 h2 => exact ⟨(_, _), mem_splits.mpr rfl, (iha _).mpr h1, (ihb _).mpr h2⟩
  | alt a b iha ihb =>
    intro s
    simp only [acc, Bool.or_eq_true, iha, ihb]
    constructor
    · rintro (h | h)
      · exact .left h
      · exact .right h
    · intro h
      cases h
      · exact .inl ‹_›
      · exact .inr ‹_›
  | star a iha => intro s; rw [acc]; exact accStar_iff iha _ _ (Nat.le_refl _)
  | plus a iha =>
    intro s
    simp only [acc, List.any_eq_true, Bool.and_eq_true]
    constructor
    · rintro ⟨x, hx, h1, h2⟩
      rw [mem_splits.mp hx]; exact .plus ((iha _).mp h1) ((accStar_iff iha _ _ (Nat.le_refl _)).mp h2)
    · intro h
      cases h with
      | plus h1 h2 =>
        exact ⟨(_, _), mem_splits.mpr rfl, (iha _).mpr h1, (accStar_iff iha _ _ (Nat.le_refl _)).mpr h2⟩
  | group n a iha =>
    intro s; rw [acc, iha]; exact ⟨.group, fun h => by cases h; assumption⟩

theorem acc_false {r : Rx} {s} : acc r s = false ↔ ¬ Lang r s := by
  rw [← acc_iff, Bool.not_eq_true]

/-! ## Languages of the usual expressions -/

theorem lang_eps {s} : Lang .eps s ↔ s = [] := ⟨fun h => by cases h; rfl, fun h => h ▸ .eps⟩
theorem lang_seq {a b s} : Lang (.seq a b) s ↔ ∃ x y, s = x ++ y ∧ Lang a x ∧ Lang b y :=
  ⟨fun h => by cases h; exact ⟨_, _, rfl, ‹_›, ‹_›⟩, by rintro ⟨x, y, rfl, h1, h2⟩; exact .seq h1 h2⟩
theorem lang_alt {a b s} : Lang (.alt a b) s ↔ Lang a s ∨ Lang b s :=
  ⟨fun h => by
    cases h
    · exact .inl ‹_›
    · exact .inr ‹_›, fun h => h.elim .left .right⟩
theorem lang_group {n a s} : Lang (.group n a) s ↔ Lang a s :=
  ⟨fun h => by cases h; assumption, .group⟩
theorem lang_cls {neg ranges s} : Lang (.cls neg ranges) s ↔ ∃ c, s = [c] ∧ OneOf neg ranges c :=
  ⟨fun h => by cases h; exact ⟨_, rfl, ‹_›⟩, by rintro ⟨c, rfl, h⟩; exact .cls h⟩

theorem lang_star_cls {neg ranges s} :
    Lang (.star (.cls neg ranges)) s ↔ ∀ c ∈ s, OneOf neg ranges c := by
  constructor
  · intro h
    generalize hr : Rx.star (.cls neg ranges) = r at h
    induction h with
    | none => simp
    | more hx _ _ ihy =>
      cases hr
      obtain ⟨c, rfl, hc⟩ := lang_cls.mp hx
      intro d hd
      rcases List.mem_cons.mp hd with rfl | hd
      · exact hc
      · exact ihy rfl d hd
    | _ => cases hr
  · intro h
    induction s with
    | nil => exact .none
    | cons c s ih =>
      have : c :: s = [c] ++ s := rfl
      rw [this]
      exact .more (.cls (h c (by simp))) (ih fun d hd => h d (by simp [hd]))

theorem lang_plus_cls {neg ranges s} :
    Lang (.plus (.cls neg ranges)) s ↔ s ≠ [] ∧ ∀ c ∈ s, OneOf neg ranges c := by
  constructor
  · intro h
    cases h with
    | plus hx hy =>
      obtain ⟨c, rfl, hc⟩ := lang_cls.mp hx
      refine ⟨by simp, ?_⟩
      intro d hd
      rcases List.mem_cons.mp hd with rfl | hd
      · exact hc
      · exact lang_star_cls.mp hy d hd
  · rintro ⟨hne, h⟩
    cases s with
    | nil => exact absurd rfl hne
    | cons c s =>
      have : c :: s = [c] ++ s := rfl
      rw [this]
      exact .plus (.cls (h c (by simp))) (lang_star_cls.mpr fun d hd => h d (by simp [hd]))

/-- A literal text as an expression. -/
def lit : Bytes → Rx
  | [] => .eps
  | [c] => .cls false [(c, c)]
  | c :: s => .seq (.cls false [(c, c)]) (lit s)

theorem oneOf_single {c d : UInt8} : OneOf false [(c, c)] d ↔ d = c := by
  simp only [OneOf, List.mem_singleton, exists_eq_left, Bool.false_eq_true, if_false]
  constructor
  · rintro ⟨h1, h2⟩; exact UInt8.le_antisymm h2 h1
  · rintro rfl; exact ⟨UInt8.le_refl _, UInt8.le_refl _⟩

theorem lang_lit : ∀ (w s : Bytes), Lang (lit w) s ↔ s = w
  | [], s => lang_eps
  | [c], s => by
    rw [lit, lang_cls]
    constructor
    · rintro ⟨d, rfl, h⟩; rw [oneOf_single.mp h]
    · rintro rfl; exact ⟨c, rfl, oneOf_single.mpr rfl⟩
  | c :: d :: w, s => by
    rw [lit, lang_seq]
    · constructor
      · rintro ⟨x, y, rfl, hx, hy⟩
        obtain ⟨e, rfl, he⟩ := lang_cls.mp hx
        rw [oneOf_single.mp he, (lang_lit (d :: w) y).mp hy]; rfl
      · rintro rfl
        exact ⟨[c], d :: w, rfl, .cls (oneOf_single.mpr rfl), (lang_lit _ _).mpr rfl⟩
    · intro h; cases h

/-! ## Matches -/

theorem matchHere_some {p : Pattern} {s m} (h : matchHere p s = some m) :
    ∃ rest, s = m ++ rest ∧ Lang p.body m ∧ (p.stop = true → rest = []) ∧
      ∀ m' rest', s = m' ++ rest' → Lang p.body m' → (p.stop = true → rest' = []) →
        m'.length ≤ m.length := by
  unfold matchHere at h
  simp only [Option.map_eq_some_iff] at h
  obtain ⟨x, hx, rfl⟩ := h
  obtain ⟨h1, h2, h3⟩ := find_splits hx
  simp only [Bool.and_eq_true, Bool.or_eq_true, Bool.not_eq_true', List.isEmpty_iff, acc_iff] at h2 h3
  refine ⟨x.2, h1, h2.1, ?_, ?_⟩
  · intro hs; rcases h2.2 with h | h
    · rw [hs] at h; cases h
    · exact h
  · intro m' rest' he hl hs
    refine h3 (m', rest') he ⟨hl, ?_⟩
    cases hp : p.stop
    · exact .inl rfl
    · exact .inr (hs hp)

theorem matchHere_none {p : Pattern} {s} (h : matchHere p s = none) :
    ∀ m rest, s = m ++ rest → Lang p.body m → ¬ (p.stop = true → rest = []) := by
  unfold matchHere at h
  rw [Option.map_eq_none_iff, find_splits_none] at h
  intro m rest he hl hs
  have := h (m, rest) he
  simp only [Bool.and_eq_false_iff, Bool.or_eq_false_iff, acc_false, Bool.not_eq_false',
    List.isEmpty_eq_false_iff] at this
  rcases this with h | ⟨h1, h2⟩
  · exact h hl
  · exact h2 (hs h1)

theorem search_some {p : Pattern} : ∀ {s m}, search p s = some m →
    ∃ before rest, s = before ++ m ++ rest ∧ Fits p before m rest ∧
      ∀ before' m' after', s = before' ++ m' ++ after' → Lang p.body m' →
        (p.stop = true → after' = []) →
        before.length < before'.length ∨ before.length = before'.length ∧ m'.length ≤ m.length
  | [], m, h => by
    rw [search] at h
    obtain ⟨rest, h1, h2, h3, h4⟩ := matchHere_some h
    refine ⟨[], rest, h1, ⟨h2, fun _ => rfl, h3⟩, ?_⟩
    intro b' m' a' he hl hs
    have hb : b' = [] := by
      cases b' with
      | nil => rfl
      | cons => simp at he
    subst hb
    exact .inr ⟨rfl, h4 m' a' (by simpa using he) hl hs⟩
  | c :: s, m, h => by
    rw [search] at h
    split at h
    · rename_i k hk
      cases h
      obtain ⟨rest, h1, h2, h3, h4⟩ := matchHere_some hk
      refine ⟨[], rest, h1, ⟨h2, fun _ => rfl, h3⟩, ?_⟩
      intro b' m' a' he hl hs
      cases b' with
      | nil => exact .inr ⟨rfl, h4 m' a' (by simpa using he) hl hs⟩
      | cons d b' => exact .inl (by simp)
    · rename_i hk
      split at h
      · cases h
      · rename_i hst
        obtain ⟨b, rest, h1, h2, h3⟩ := search_some h
        refine ⟨c :: b, rest, by simp [h1], ⟨h2.1, fun hs => absurd hs hst, h2.2.2⟩, ?_⟩
        intro b' m' a' he hl hs
        cases b' with
        | nil => exact absurd hs (matchHere_none hk m' a' (by simpa using he) hl)
        | cons d b' =>
          simp only [List.cons_append, List.cons.injEq, List.append_eq] at he
          rcases h3 b' m' a' he.2 hl hs with h | ⟨h, h'⟩
          · exact .inl (by simp; omega)
          · exact .inr ⟨by simp; omega, h'⟩

theorem search_none {p : Pattern} : ∀ {s}, search p s = none →
    ∀ before m after, s = before ++ m ++ after → ¬ Fits p before m after
  | [], h => by
    intro b m a he hf
    have hb : b = [] := by
      cases b with
      | nil => rfl
      | cons => simp at he
    subst hb
    rw [search] at h
    exact matchHere_none h m a (by simpa using he) hf.1 hf.2.2
  | c :: s, h => by
    intro b m a he hf
    rw [search] at h
    split at h
    · cases h
    · rename_i hk
      cases b with
      | nil => exact matchHere_none hk m a (by simpa using he) hf.1 hf.2.2
      | cons d b =>
        split at h
        · rename_i hst; have := hf.2.1 hst; cases this
        · rename_i hst
          simp only [List.cons_append, List.cons.injEq, List.append_eq] at he
          exact search_none h b m a he.2 ⟨hf.1, fun hs => absurd hs hst, hf.2.2⟩

/-- The search finds the match that is to be chosen. -/
theorem search_chosen {p : Pattern} {s m} (h : search p s = some m) :
    ∃ before after, Chosen p s before m after := by
  obtain ⟨b, r, h1, h2, h3⟩ := search_some h
  exact ⟨b, r, h1, h2, fun b' m' a' he hf => h3 b' m' a' he hf.1 hf.2.2⟩

/-- A match that is anchored on both sides. -/
theorem search_full {r : Rx} {s} :
    search ⟨true, r, true⟩ s = if acc r s then some s else none := by
  cases h : search ⟨true, r, true⟩ s with
  | some m =>
    obtain ⟨b, a, h1, h2, _⟩ := search_some h
    have hb := h2.2.1 rfl
    have ha := h2.2.2 rfl
    subst hb; subst ha
    simp only [List.nil_append, List.append_nil] at h1
    subst h1
    rw [if_pos ((acc_iff _ _).mpr h2.1)]
  | none =>
    have := search_none h [] s [] (by simp)
    rw [if_neg]
    intro hac
    exact this ⟨(acc_iff _ _).mp hac, fun _ => rfl, fun _ => rfl⟩

/-- A match that is anchored at the beginning only: the longest beginning. -/
theorem search_prefix {r : Rx} {s m} (h : search ⟨true, r, false⟩ s = some m) :
    ∃ rest, s = m ++ rest ∧ Lang r m ∧ ∀ m' rest', s = m' ++ rest' → Lang r m' → m'.length ≤ m.length := by
  obtain ⟨b, a, h1, h2, h3⟩ := search_some h
  have hb := h2.2.1 rfl
  subst hb
  refine ⟨a, by simpa using h1, h2.1, ?_⟩
  intro m' rest' he hl
  rcases h3 [] m' rest' (by simpa using he) hl (fun h => by cases h) with h | h
  · exact absurd h (Nat.lt_irrefl _)
  · exact h.2

theorem search_prefix_none {r : Rx} {s} :
    search ⟨true, r, false⟩ s = none ↔ ∀ m rest, s = m ++ rest → ¬ Lang r m := by
  constructor
  · intro h m rest he hl
    exact search_none h [] m rest (by simpa using he) ⟨hl, fun _ => rfl, fun h => by cases h⟩
  · intro h
    cases hs : search ⟨true, r, false⟩ s with
    | none => rfl
    | some m =>
      obtain ⟨rest, h1, h2, _⟩ := search_prefix hs
      exact absurd h2 (h m rest h1)

/-- The parts of a match of a sequence. -/
theorem caps_seq {a b s} (h : Lang (.seq a b) s) :
    ∃ x y, s = x ++ y ∧ Lang a x ∧ Lang b y ∧ caps (.seq a b) s = caps a x ++ caps b y ∧
      ∀ x' y', s = x' ++ y' → Lang a x' → Lang b y' → x'.length ≤ x.length := by
  rw [caps]
  cases hf : (splits s).find? fun x => acc a x.1 && acc b x.2 with
  | none =>
    rw [find_splits_none] at hf
    obtain ⟨x, y, he, hx, hy⟩ := lang_seq.mp h
    have := hf (x, y) he
    simp only [Bool.and_eq_false_iff, acc_false] at this
    rcases this with h | h
    · exact absurd hx h
    · exact absurd hy h
  | some x =>
    obtain ⟨h1, h2, h3⟩ := find_splits hf
    simp only [Bool.and_eq_true, acc_iff] at h2 h3
    exact ⟨x.1, x.2, h1, h2.1, h2.2, rfl, fun x' y' he h1 h2 => h3 (x', y') he ⟨h1, h2⟩⟩

theorem caps_group {n a s} : caps (.group n a) s = (n, s) :: caps a s := rfl

theorem caps_opt {a s} (h : Lang (.alt a .eps) s) :
    (Lang a s ∧ caps (.alt a .eps) s = caps a s) ∨ (¬ Lang a s ∧ s = [] ∧ caps (.alt a .eps) s = []) := by
  rw [caps]
  by_cases ha : Lang a s
  · left; refine ⟨ha, ?_⟩; rw [if_pos ((acc_iff _ _).mpr ha)]
  · right
    refine ⟨ha, ?_, ?_⟩
    · rcases lang_alt.mp h with h | h
      · exact absurd h ha
      · exact lang_eps.mp h
    · rw [if_neg (by rw [acc_iff]; exact ha), caps.eq_def]

/-! ## Groups -/

/-- There is no group in the expression. -/
def noGroup : Rx → Bool
  | .eps => true
  | .cls _ _ => true
  | .seq a b => noGroup a && noGroup b
  | .alt a b => noGroup a && noGroup b
  | .star a => noGroup a
  | .plus a => noGroup a
  | .group _ _ => false

theorem caps_noGroup : ∀ (r : Rx) (s), noGroup r = true → caps r s = []
  | .eps, _, _ => rfl
  | .cls _ _, _, _ => rfl
  | .star _, _, _ => rfl
  | .plus _, _, _ => rfl
  | .group _ _, _, h => by simp [noGroup] at h
  | .alt a b, s, h => by
    simp only [noGroup, Bool.and_eq_true] at h
    rw [caps]; split
    · exact caps_noGroup a s h.1
    · exact caps_noGroup b s h.2
  | .seq a b, s, h => by
    simp only [noGroup, Bool.and_eq_true] at h
    rw [caps]; split
    · rw [caps_noGroup a _ h.1, caps_noGroup b _ h.2]; rfl
    · rfl

/-- One character in front. -/
theorem caps_cls_seq {neg ranges r s} (h : Lang (.seq (.cls neg ranges) r) s) :
    ∃ c t, s = c :: t ∧ OneOf neg ranges c ∧ Lang r t ∧ caps (.seq (.cls neg ranges) r) s = caps r t := by
  obtain ⟨x, y, rfl, hx, hy, hc, _⟩ := caps_seq h
  obtain ⟨c, rfl, ho⟩ := lang_cls.mp hx
  exact ⟨c, y, rfl, ho, hy, by rw [hc]; rfl⟩

/-! ## The functions of the code -/

theorem regexMatch_full {t e : Bytes} {x : Rx} (hc : compile e = some ⟨true, x, true⟩) (he : e.isEmpty = false)
    (h0 : ¬ Lang x []) : regexMatch t e = true ↔ Lang x (cstr t) := by
  unfold regexMatch
  simp only [he, hc, search_full, Bool.or_false]
  cases t with
  | nil => simp [cstr, h0]
  | cons a t =>
    simp only [List.isEmpty_cons, Bool.false_eq_true, if_false]
    by_cases hl : Lang x (cstr (a :: t))
    · simp [hl, (acc_iff _ _).mpr hl]
    · simp [hl, acc_false.mpr hl]

theorem regexMatch_prefix {t e : Bytes} {x : Rx} (hc : compile e = some ⟨true, x, false⟩) (he : e.isEmpty = false)
    (h0 : ¬ Lang x []) : regexMatch t e = true ↔ ∃ m rest, cstr t = m ++ rest ∧ Lang x m := by
  unfold regexMatch
  simp only [he, hc, Bool.or_false]
  cases t with
  | nil =>
    simp only [List.isEmpty_nil, if_true, Bool.false_eq_true, false_iff]
    rintro ⟨m, rest, h1, h2⟩
    have : m = [] := by
      cases m with
      | nil => rfl
      | cons _ _ => simp [cstr] at h1
    subst this; exact h0 h2
  | cons a t =>
    simp only [List.isEmpty_cons, Bool.false_eq_true, if_false]
    cases hs : search ⟨true, x, false⟩ (cstr (a :: t)) with
    | none =>
      rw [search_prefix_none] at hs
      simp only [Option.isSome_none, Bool.false_eq_true, false_iff]
      rintro ⟨m, rest, h1, h2⟩; exact hs m rest h1 h2
    | some m =>
      obtain ⟨rest, h1, h2, _⟩ := search_prefix hs
      simp only [Option.isSome_some, true_iff]
      exact ⟨m, rest, h1, h2⟩

theorem getD_range {f : Nat → Bytes} {k i : Nat} (h : i < k) : ((List.range k).map f).getD i [] = f i := by
  simp [List.getD, h]

/-- What `regexCapture` gives if both ends are anchored. -/
theorem regexCapture_full {t e : Bytes} {x : Rx} (k : Nat) (hc : compile e = some ⟨true, x, true⟩)
    (he : e.isEmpty = false) (h0 : ¬ Lang x []) (h : Lang x (cstr t)) :
    ∃ g, regexCapture t e k = some g ∧
      ∀ i, i < k → g.getD i [] = if i = 0 then cstr t else ((caps x (cstr t)).lookup i).getD [] := by
  unfold regexCapture
  have ht : t.isEmpty = false := by
    cases t with
    | nil => exact absurd h h0
    | cons _ _ => rfl
  simp only [he, hc, ht, search_full, Bool.or_false, Bool.false_eq_true, if_false, (acc_iff _ _).mpr h, if_true]
  exact ⟨_, rfl, fun i hi => getD_range hi⟩

theorem regexCapture_full_none {t e : Bytes} {x : Rx} (k : Nat) (hc : compile e = some ⟨true, x, true⟩)
    (h : ¬ Lang x (cstr t)) : regexCapture t e k = none := by
  unfold regexCapture
  split
  · rfl
  · simp only [hc, search_full, acc_false.mpr h, Bool.false_eq_true, if_false]

theorem regexCapture_prefix {t e : Bytes} {x : Rx} (k : Nat) (hc : compile e = some ⟨true, x, false⟩)
    (he : e.isEmpty = false) (h0 : ¬ Lang x []) (h : ∃ m rest, cstr t = m ++ rest ∧ Lang x m) :
    ∃ g m rest, regexCapture t e k = some g ∧ cstr t = m ++ rest ∧ Lang x m ∧
      (∀ m' rest', cstr t = m' ++ rest' → Lang x m' → m'.length ≤ m.length) ∧
      ∀ i, i < k → g.getD i [] = if i = 0 then m else ((caps x m).lookup i).getD [] := by
  unfold regexCapture
  have ht : t.isEmpty = false := by
    cases t with
    | nil =>
      obtain ⟨m, rest, h1, h2⟩ := h
      have : m = [] := by
        cases m with
        | nil => rfl
        | cons _ _ => simp [cstr] at h1
      subst this; exact absurd h2 h0
    | cons _ _ => rfl
  simp only [he, hc, ht, Bool.or_false, Bool.false_eq_true, if_false]
  cases hs : search ⟨true, x, false⟩ (cstr t) with
  | none =>
    obtain ⟨m, rest, h1, h2⟩ := h
    exact absurd h2 (search_prefix_none.mp hs m rest h1)
  | some m =>
    obtain ⟨rest, h1, h2, h3⟩ := search_prefix hs
    exact ⟨_, m, rest, rfl, h1, h2, h3, fun i hi => getD_range hi⟩

theorem regexCapture_prefix_none {t e : Bytes} {x : Rx} (k : Nat) (hc : compile e = some ⟨true, x, false⟩)
    (h : ¬ ∃ m rest, cstr t = m ++ rest ∧ Lang x m) : regexCapture t e k = none := by
  unfold regexCapture
  split
  · rfl
  · have : search ⟨true, x, false⟩ (cstr t) = none :=
      search_prefix_none.mpr fun m rest h1 h2 => h ⟨m, rest, h1, h2⟩
    simp only [hc, this]

end Verif.Regex
