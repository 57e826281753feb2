import Verif.Proof.RecogniseCapture
import Verif.Proof.RecogniseUnique
import Verif.Proof.Mson
/-! The groups of the expressions of payloads. -/
namespace Verif.Recognition
open Verif Verif.Text Verif.Signature Verif.Regex Verif.Spec Verif.Spec.Regex Verif.Spec.Recognition Verif.Section

theorem k_media {n s} (h : Lang (rMedia n) s) : (s = [] ∧ caps (rMedia n) s = []) ∨
    ∃ m, Media s m ∧ caps (rMedia n) s = [(n, s), (n + 1, m)] := by
  have hl := l_media.mp h
  rcases k_opt h with ⟨h1, h2⟩ | ⟨_, rfl, h2⟩
  · rw [lang_group] at h1
    obtain ⟨b, y, rfl, hb, hy, h3, _⟩ := caps_seq h1
    obtain ⟨t, rfl, hy, h4⟩ := k_cons hy
    obtain ⟨m, z, rfl, hm, hz, h5, _⟩ := caps_seq hy
    rw [l_char] at hz; subst hz
    refine .inr ⟨m, ?_, ?_⟩
    · obtain ⟨m', ⟨h6, _⟩ | ⟨b', he, hb', hm'⟩⟩ := hl
      · simp at h6
      · have hmm : m = m' := by
          rw [List.append_assoc] at he
          obtain ⟨_, h7⟩ := cancel_blanks he (l_blanks.mp hb) hb' (by intro c hc; simp at hc; subst hc; decide)
            (by intro c hc; simp at hc; subst hc; decide)
          exact List.append_cancel_right (List.cons.inj h7).2
        subst hmm
        exact .inr ⟨b', he, hb', hm'⟩
    · have h2 : caps (rMedia n) _ = _ := h2
      rw [h2, k_group, h3, h4, h5]
      simp [k_blanks, k_group, k_char, k_star]
  · exact .inl ⟨rfl, h2⟩

theorem g_request {s} (h : Lang xRequest s) :
    ∃ n m, RequestLine s n m ∧ grp xRequest s 1 = n ∧ grp xRequest s 4 = m := by
  obtain ⟨a, y, rfl, ha, hy, h1, _⟩ := caps_seq h
  obtain ⟨w, z, rfl, hw, hz, h2⟩ := k_kw hy
  obtain ⟨n, z, rfl, hn, hz, h3, _⟩ := caps_seq hz
  obtain ⟨p, b, rfl, hp, hb, h4, _⟩ := caps_seq hz
  have h1 : caps xRequest _ = _ := h1
  have key : ∃ l, caps (rOpt (.group 1 (.seq rBlank (.group 2 rSymbol)))) n = l ∧
      ((l = [] ∧ n = []) ∨ ∃ c t, l = [(1, n), (2, t)] ∧ n = c :: t ∧ (c = 32 ∨ c = 9) ∧ Name t) := by
    rcases k_opt hn with ⟨h5, h6⟩ | ⟨_, rfl, h6⟩
    · rw [lang_group] at h5
      obtain ⟨c, t, rfl, hc, ht, h7, _⟩ := caps_seq h5
      obtain ⟨c, rfl, hcc⟩ := l_blank.mp hc
      rw [lang_group, l_symbol] at ht
      refine ⟨_, h6, .inr ⟨c, t, ?_, rfl, hcc, ht⟩⟩
      rw [k_group, h7]; simp [k_group, k_symbol, rBlank, k_cls]
    · exact ⟨_, h6, .inl ⟨rfl, rfl⟩⟩
  obtain ⟨l, h5, h6⟩ := key
  have hname : n = [] ∨ ∃ c t, n = c :: t ∧ (c = 32 ∨ c = 9) ∧ Name t := by
    rcases h6 with ⟨_, h⟩ | ⟨c, t, _, h⟩
    · exact .inl h
    · exact .inr ⟨c, t, h⟩
  rcases k_media hp with ⟨rfl, h7⟩ | ⟨m, hm, h7⟩
  · refine ⟨n, [], ⟨a, w, [], b, by simp, l_blanks.mp ha, hw, hname, .inl ⟨rfl, rfl⟩, l_blanks.mp hb⟩, ?_, ?_⟩
    · rw [grp, h1, h2, h3, h4, h5, h7]
      rcases h6 with ⟨rfl, rfl⟩ | ⟨c, t, rfl, rfl, _⟩ <;> simp [k_blanks, List.lookup]
    · rw [grp, h1, h2, h3, h4, h5, h7]
      rcases h6 with ⟨rfl, rfl⟩ | ⟨c, t, rfl, rfl, _⟩ <;> simp [k_blanks, List.lookup]
  · refine ⟨n, m, ⟨a, w, p, b, by simp, l_blanks.mp ha, hw, hname, hm, l_blanks.mp hb⟩, ?_, ?_⟩
    · rw [grp, h1, h2, h3, h4, h5, h7]
      rcases h6 with ⟨rfl, rfl⟩ | ⟨c, t, rfl, rfl, _⟩ <;> simp [k_blanks, List.lookup]
    · rw [grp, h1, h2, h3, h4, h5, h7]
      rcases h6 with ⟨rfl, rfl⟩ | ⟨c, t, rfl, rfl, _⟩ <;> simp [k_blanks, List.lookup]

theorem g_response {s} (h : Lang xResponse s) :
    ∃ n m, ResponseLine s n m ∧ grp xResponse s 1 = n ∧ grp xResponse s 3 = m := by
  obtain ⟨a, y, rfl, ha, hy, h1, _⟩ := caps_seq h
  obtain ⟨w, z, rfl, hw, hz, h2⟩ := k_kw hy
  obtain ⟨n, z, rfl, hn, hz, h3, _⟩ := caps_seq hz
  obtain ⟨p, b, rfl, hp, hb, h4, _⟩ := caps_seq hz
  have h1 : caps xResponse _ = _ := h1
  have key : ∃ l, caps (rOpt (.group 1 rStatus)) n = l ∧ ((l = [] ∧ n = []) ∨ l = [(1, n)]) := by
    rcases k_opt hn with ⟨h5, h6⟩ | ⟨_, rfl, h6⟩
    · exact ⟨_, h6, .inr (by rw [k_group]; rfl)⟩
    · exact ⟨_, h6, .inl ⟨rfl, rfl⟩⟩
  have hst : ∀ c ∈ n, c = 32 ∨ c = 9 ∨ (asc '0' ≤ c ∧ c ≤ asc '9') := by
    rw [l_opt, lang_group, rStatus, lang_plus_cls] at hn
    rcases hn with rfl | hn
    · simp
    · simpa only [oneOf_status] using hn.2
  obtain ⟨l, h5, h6⟩ := key
  rcases k_media hp with ⟨rfl, h7⟩ | ⟨m, hm, h7⟩
  · refine ⟨n, [], ⟨a, w, [], b, by simp, l_blanks.mp ha, hw, hst, .inl ⟨rfl, rfl⟩, l_blanks.mp hb⟩, ?_, ?_⟩
    · rw [grp, h1, h2, h3, h4, h5, h7]
      rcases h6 with ⟨rfl, rfl⟩ | rfl <;> simp [k_blanks, List.lookup]
    · rw [grp, h1, h2, h3, h4, h5, h7]
      rcases h6 with ⟨rfl, rfl⟩ | rfl <;> simp [k_blanks, List.lookup]
  · refine ⟨n, m, ⟨a, w, p, b, by simp, l_blanks.mp ha, hw, hst, hm, l_blanks.mp hb⟩, ?_, ?_⟩
    · rw [grp, h1, h2, h3, h4, h5, h7]
      rcases h6 with ⟨rfl, rfl⟩ | rfl <;> simp [k_blanks, List.lookup]
    · rw [grp, h1, h2, h3, h4, h5, h7]
      rcases h6 with ⟨rfl, rfl⟩ | rfl <;> simp [k_blanks, List.lookup]

theorem g_model {s} (h : Lang xModel s) :
    ∃ n m, ModelLine s n m ∧ grp xModel s 2 = n ∧ grp xModel s 4 = m := by
  obtain ⟨a, y, rfl, ha, hy, h1, _⟩ := caps_seq h
  obtain ⟨i, z, rfl, hi, hz, h2, _⟩ := caps_seq hy
  obtain ⟨w, z, rfl, hw, hz, h3⟩ := k_kw hz
  obtain ⟨p, b, rfl, hp, hb, h4, _⟩ := caps_seq hz
  have h1 : caps xModel _ = _ := h1
  have key : ∃ l, caps (rOpt (.group 1 (.seq (.group 2 rSymbol) rGap))) i = l ∧
      ((l = [] ∧ i = []) ∨ ∃ n g, l = [(1, i), (2, n)] ∧ i = n ++ g ∧ Name n ∧ Gap g) := by
    rcases k_opt hi with ⟨h5, h6⟩ | ⟨_, rfl, h6⟩
    · rw [lang_group] at h5
      obtain ⟨n, g, rfl, hn, hg, h7, _⟩ := caps_seq h5
      rw [lang_group, l_symbol] at hn
      refine ⟨_, h6, .inr ⟨n, g, ?_, rfl, hn, l_gap.mp hg⟩⟩
      rw [k_group, h7]; simp [k_group, k_symbol, k_gap]
    · exact ⟨_, h6, .inl ⟨rfl, rfl⟩⟩
  obtain ⟨l, h5, h6⟩ := key
  rcases k_media hp with ⟨rfl, h7⟩ | ⟨m, hm, h7⟩
  · rcases h6 with ⟨rfl, rfl⟩ | ⟨n, g, rfl, rfl, hn, hg⟩
    · refine ⟨[], [], ⟨a, [], w, [], b, by simp, l_blanks.mp ha, .inl ⟨rfl, rfl⟩, hw, .inl ⟨rfl, rfl⟩, l_blanks.mp hb⟩,
        ?_, ?_⟩ <;> · rw [grp, h1, h2, h3, h4, h5, h7]; simp [k_blanks, List.lookup]
    · refine ⟨n, [], ⟨a, n ++ g, w, [], b, by simp, l_blanks.mp ha, .inr ⟨g, rfl, hn, hg⟩, hw, .inl ⟨rfl, rfl⟩,
        l_blanks.mp hb⟩, ?_, ?_⟩ <;> · rw [grp, h1, h2, h3, h4, h5, h7]; simp [k_blanks, List.lookup]
  · rcases h6 with ⟨rfl, rfl⟩ | ⟨n, g, rfl, rfl, hn, hg⟩
    · refine ⟨[], m, ⟨a, [], w, p, b, by simp, l_blanks.mp ha, .inl ⟨rfl, rfl⟩, hw, hm, l_blanks.mp hb⟩,
        ?_, ?_⟩ <;> · rw [grp, h1, h2, h3, h4, h5, h7]; simp [k_blanks, List.lookup]
    · refine ⟨n, m, ⟨a, n ++ g, w, p, b, by simp, l_blanks.mp ha, .inr ⟨g, rfl, hn, hg⟩, hw, hm,
        l_blanks.mp hb⟩, ?_, ?_⟩ <;> · rw [grp, h1, h2, h3, h4, h5, h7]; simp [k_blanks, List.lookup]

/-! ## The parts of a line are determined -/

theorem blank_no {a : Bytes} {c : UInt8} (h : Blank a) (hc : ¬ White c) : c ∉ a := fun hm => hc (h c hm)

theorem media_split {h p t h' p' t' m m' : Bytes} (he : h ++ p ++ t = h' ++ p' ++ t') (hp : Media p m) (hp' : Media p' m')
    (n1 : asc '(' ∉ h) (n2 : asc '(' ∉ h') (ht : Blank t) (ht' : Blank t') :
    m = m' ∧ ∃ x x', Blank x ∧ Blank x' ∧ h ++ x = h' ++ x' := by
  have np : ¬ White (asc '(') := by simp [White]; decide
  have n3 := blank_no ht np
  have n4 := blank_no ht' np
  rcases hp with ⟨rfl, rfl⟩ | ⟨b, rfl, hb, hm⟩
  · rcases hp' with ⟨rfl, rfl⟩ | ⟨b', rfl, hb', hm'⟩
    · exact ⟨rfl, t, t', ht, ht', by simpa using he⟩
    · exfalso
      have : asc '(' ∈ h ++ [] ++ t := by rw [he]; simp
      simp [n1, n3] at this
  · rcases hp' with ⟨rfl, rfl⟩ | ⟨b', rfl, hb', hm'⟩
    · exfalso
      have : asc '(' ∈ h' ++ [] ++ t' := by rw [← he]; simp
      simp [n2, n4] at this
    · have he : (h ++ b) ++ asc '(' :: (m ++ asc ')' :: t) = (h' ++ b') ++ asc '(' :: (m' ++ asc ')' :: t') := by
        simpa using he
      have nb := blanks_no (c := asc '(') hb (by decide) (by decide)
      have nb' := blanks_no (c := asc '(') hb' (by decide) (by decide)
      obtain ⟨h1, h2⟩ := append_cons_inj he (by simp [n1, nb]) (by simp [n2, nb'])
      obtain ⟨h3, _⟩ := append_cons_inj h2 (fun hc => (hm _ hc).1 rfl) (fun hc => (hm' _ hc).1 rfl)
      exact ⟨h3, b, b', blanks_blank hb, blanks_blank hb', h1⟩

theorem blank_append' {a b : Bytes} (ha : Blank a) (hb : Blank b) : Blank (a ++ b) := by
  intro c hc; rcases List.mem_append.mp hc with h | h
  · exact ha c h
  · exact hb c h

theorem word_cancel {a1 a2 : Char} {t : String} {a w x a' w' x' : Bytes} (ha : Blanks a) (ha' : Blanks a')
    (hw : Word a1 a2 t w) (hw' : Word a1 a2 t w') (h : asc a1 ≠ 32 ∧ asc a1 ≠ 9 ∧ asc a2 ≠ 32 ∧ asc a2 ≠ 9)
    (he : a ++ (w ++ x) = a' ++ (w' ++ x')) : x = x' := by
  have sol : ∀ {w x : Bytes}, Word a1 a2 t w → Solid (w ++ x) := by
    rintro w x (rfl | rfl) c hc
    · simp at hc; subst hc; exact ⟨h.1, h.2.1⟩
    · simp at hc; subst hc; exact h.2.2
  obtain ⟨_, he⟩ := cancel_blanks he ha ha' (sol hw) (sol hw')
  have hl : w.length = w'.length := by rcases hw with rfl | rfl <;> rcases hw' with rfl | rfl <;> rfl
  exact (List.append_inj he hl).2

theorem requestLine_extend {p r n m n' m' : Bytes} (h : RequestLine p n m) (h' : RequestLine (p ++ r) n' m') (hr : Blank r) :
    trim n = trim n' ∧ m = m' := by
  obtain ⟨a, w, q, b, rfl, ha, hw, hn, hq, hb⟩ := h
  obtain ⟨a', w', q', b', he, ha', hw', hn', hq', hb'⟩ := h'
  have he := word_cancel (x := n ++ q ++ (b ++ r)) (x' := n' ++ q' ++ b') ha ha' hw hw' (by decide) (by simpa using he)
  have no : ∀ {n : Bytes}, (n = [] ∨ ∃ c t, n = c :: t ∧ (c = 32 ∨ c = 9) ∧ Name t) → asc '(' ∉ n := by
    rintro n (rfl | ⟨c, t, rfl, hc, ht⟩)
    · simp
    · simp only [List.mem_cons, not_or]
      refine ⟨?_, fun hm => (ht.2 _ hm).2.2.1 rfl⟩
      rcases hc with rfl | rfl <;> decide
  obtain ⟨h1, x, x', hx, hx', h2⟩ := media_split he hq hq' (no hn) (no hn') (blank_append' (blanks_blank hb) hr) (blanks_blank hb')
  have := congrArg trim h2
  rw [trim_append_right hx, trim_append_right hx'] at this
  exact ⟨this, h1⟩

theorem responseLine_extend {p r n m n' m' : Bytes} (h : ResponseLine p n m) (h' : ResponseLine (p ++ r) n' m') (hr : Blank r) :
    trim n = trim n' ∧ m = m' := by
  obtain ⟨a, w, q, b, rfl, ha, hw, hn, hq, hb⟩ := h
  obtain ⟨a', w', q', b', he, ha', hw', hn', hq', hb'⟩ := h'
  have he := word_cancel (x := n ++ q ++ (b ++ r)) (x' := n' ++ q' ++ b') ha ha' hw hw' (by decide) (by simpa using he)
  have no : ∀ {n : Bytes}, (∀ c ∈ n, c = 32 ∨ c = 9 ∨ (asc '0' ≤ c ∧ c ≤ asc '9')) → asc '(' ∉ n :=
    fun h hm => absurd (h _ hm) (by decide)
  obtain ⟨h1, x, x', hx, hx', h2⟩ := media_split he hq hq' (no hn) (no hn') (blank_append' (blanks_blank hb) hr) (blanks_blank hb')
  have := congrArg trim h2
  rw [trim_append_right hx, trim_append_right hx'] at this
  exact ⟨this, h1⟩

/-- Blanks at the end do not matter in front of which something else stands. -/
theorem cancel_right {u x u' x' : Bytes} (h : u ++ x = u' ++ x') (hx : Blank x) (hx' : Blank x')
    (hu : ∀ c, u.getLast? = some c → ¬ White c) (hu' : ∀ c, u'.getLast? = some c → ¬ White c) : u = u' := by
  rcases List.append_eq_append_iff.mp h with ⟨z, h1, h2⟩ | ⟨z, h1, h2⟩
  · cases hz : z.getLast? with
    | none => rw [List.getLast?_eq_none_iff] at hz; subst hz; simpa using h1.symm
    | some c =>
      refine absurd (hx c ?_) (hu' c ?_)
      · rw [h2]; exact List.mem_append_left _ (List.mem_of_getLast? hz)
      · rw [h1, List.getLast?_append, hz]; rfl
  · cases hz : z.getLast? with
    | none => rw [List.getLast?_eq_none_iff] at hz; subst hz; simpa using h1
    | some c =>
      refine absurd (hx' c ?_) (hu c ?_)
      · rw [h2]; exact List.mem_append_left _ (List.mem_of_getLast? hz)
      · rw [h1, List.getLast?_append, hz]; rfl

theorem modelLine_unique {s n m n' m' : Bytes} (h : ModelLine s n m) (h' : ModelLine s n' m') : trim n = trim n' ∧ m = m' := by
  obtain ⟨a, i, w, q, b, rfl, ha, hi, hw, hq, hb⟩ := h
  obtain ⟨a', i', w', q', b', he, ha', hi', hw', hq', hb'⟩ := h'
  have no : ∀ {i n : Bytes}, ((i = [] ∧ n = []) ∨ ∃ g, i = n ++ g ∧ Name n ∧ Gap g) → asc '(' ∉ i := by
    rintro i n (⟨rfl, rfl⟩ | ⟨g, rfl, hn, hg⟩)
    · simp
    · simp only [List.mem_append, not_or]
      exact ⟨fun hm => (hn.2 _ hm).2.2.1 rfl, blanks_no hg.2 (by decide) (by decide)⟩
  have tr : ∀ {i n : Bytes}, ((i = [] ∧ n = []) ∨ ∃ g, i = n ++ g ∧ Name n ∧ Gap g) → trim i = trim n := by
    rintro i n (⟨rfl, rfl⟩ | ⟨g, rfl, hn, hg⟩)
    · rfl
    · exact trim_append_right (blanks_blank hg.2)
  have nw : ∀ {w : Bytes}, Word 'M' 'm' "odel" w → asc '(' ∉ w := by rintro w (rfl | rfl) <;> decide
  have lw : ∀ {w : Bytes}, Word 'M' 'm' "odel" w → ∀ {x : Bytes}, ∀ c, (x ++ w).getLast? = some c → ¬ White c := by
    rintro w (rfl | rfl) x c hc <;>
    · rw [List.getLast?_append] at hc
      have : c = 108 := (Option.some.inj hc).symm
      subst this; simp [White]
  have nh : ∀ {a i n w : Bytes}, Blanks a → ((i = [] ∧ n = []) ∨ ∃ g, i = n ++ g ∧ Name n ∧ Gap g) →
      Word 'M' 'm' "odel" w → asc '(' ∉ a ++ i ++ w := by
    intro a i n w ha hi hw
    simp only [List.mem_append, not_or]
    exact ⟨⟨blanks_no ha (by decide) (by decide), no hi⟩, nw hw⟩
  obtain ⟨h1, x, x', hx, hx', h2⟩ := media_split he hq hq' (nh ha hi hw) (nh ha' hi' hw') (blanks_blank hb) (blanks_blank hb')
  have h3 := cancel_right h2 hx hx' (lw hw) (lw hw')
  have hl : w.length = w'.length := by rcases hw with rfl | rfl <;> rcases hw' with rfl | rfl <;> rfl
  obtain ⟨h4, _⟩ := List.append_inj' h3 hl
  have := congrArg trim h4
  rw [trim_append_left (blanks_blank ha), trim_append_left (blanks_blank ha'), tr hi, tr hi'] at this
  exact ⟨this, h1⟩

end Verif.Recognition
