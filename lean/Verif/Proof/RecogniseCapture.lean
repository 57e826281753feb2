import Verif.Proof.RecogniseMatch
/-! What the groups of the expressions hold. -/
namespace Verif.Recognition
open Verif Verif.Text Verif.Regex Verif.Spec Verif.Spec.Regex Verif.Spec.Recognition Verif.Section

/-- The text of a group. -/
def grp (x : Rx) (s : Bytes) (i : Nat) : Bytes := ((caps x s).lookup i).getD []

theorem k_method {s} : caps rMethod s = [] := caps_noGroup _ _ (by decide)
theorem k_blanks {s} : caps rBlanks s = [] := rfl
theorem k_gap {s} : caps rGap s = [] := rfl
theorem k_uri {s} : caps rUri s = [] := caps_noGroup _ _ (by decide)
theorem k_symbol {s} : caps rSymbol s = [] := rfl
theorem k_char {c s} : caps (rChar c) s = [] := rfl
theorem k_anyPlus {s} : caps (.plus rAny) s = [] := rfl
theorem k_any {s} : caps (.star rAny) s = [] := rfl
theorem k_cls {n r s} : caps (.cls n r) s = [] := rfl
theorem k_plus {r s} : caps (.plus r) s = [] := rfl
theorem k_star {r s} : caps (.star r) s = [] := rfl
theorem k_group {n r s} : caps (.group n r) s = (n, s) :: caps r s := rfl

theorem k_cons {c r s} (h : Lang (rCons c r) s) : ∃ t, s = c :: t ∧ Lang r t ∧ caps (rCons c r) s = caps r t := by
  obtain ⟨d, t, h1, h2, h3, h4⟩ := caps_cls_seq h
  rw [oneOf_single.mp h2] at h1
  exact ⟨t, h1, h3, h4⟩
theorem k_word {r} : ∀ {w s : Bytes}, Lang (word w r) s → ∃ t, s = w ++ t ∧ Lang r t ∧ caps (word w r) s = caps r t
  | [], s, h => ⟨s, rfl, h, rfl⟩
  | c :: w, s, h => by
    obtain ⟨t, rfl, h1, h2⟩ := k_cons (c := c) (r := word w r) h
    obtain ⟨t, rfl, h3, h4⟩ := k_word h1
    exact ⟨t, rfl, h3, h2.trans h4⟩
theorem k_kw {a b : Char} {w : String} {r s} (h : Lang (kw a b w r) s) :
    ∃ k t, s = k ++ t ∧ Word a b w k ∧ Lang r t ∧ caps (kw a b w r) s = caps r t := by
  obtain ⟨d, t, rfl, h2, h3, h4⟩ := caps_cls_seq h
  obtain ⟨t, rfl, h5, h6⟩ := k_word h3
  rcases oneOf_two.mp h2 with rfl | rfl
  · exact ⟨asc a :: str w, t, rfl, .inl rfl, h5, h4.trans h6⟩
  · exact ⟨asc b :: str w, t, rfl, .inr rfl, h5, h4.trans h6⟩
theorem k_opt {r s} (h : Lang (rOpt r) s) :
    (Lang r s ∧ caps (rOpt r) s = caps r s) ∨ (¬ Lang r s ∧ s = [] ∧ caps (rOpt r) s = []) := caps_opt h

/-! ## Headers -/

theorem g_action {s} (h : Lang xAction s) :
    ∃ a m b u, s = a ++ m ++ b ++ u ∧ Blanks a ∧ m ∈ methods ∧ Blanks b ∧ (u = [] ∨ Path u) ∧
      grp xAction s 1 = m ∧ grp xAction s 2 = u := by
  obtain ⟨a, y, rfl, ha, hy, h1, _⟩ := caps_seq h
  obtain ⟨m, z, rfl, hm, hz, h2, _⟩ := caps_seq hy
  obtain ⟨b, u, rfl, hb, hu, h3, _⟩ := caps_seq hz
  rw [lang_group, l_method] at hm
  have h1 : caps xAction _ = _ := h1
  refine ⟨a, m, b, u, by simp, l_blanks.mp ha, hm, l_blanks.mp hb, ?_, ?_, ?_⟩
  · rw [l_opt, lang_group, l_uri] at hu; exact hu
  · rw [grp, h1, h2, h3]; simp [k_blanks, k_group, List.lookup]
  · rw [grp, h1, h2, h3]
    rcases k_opt hu with ⟨_, h4⟩ | ⟨_, rfl, h4⟩
    · simp [k_blanks, k_group, k_method, h4, List.lookup]
    · simp [k_blanks, k_group, k_method, h4, List.lookup]

theorem g_namedAction {s} (h : Lang xNamedAction s) :
    ∃ a n m b u, s = a ++ n ++ asc '[' :: m ++ b ++ u ++ [asc ']'] ∧ Blanks a ∧ n ≠ [] ∧ m ∈ methods ∧ Blanks b ∧
      (u = [] ∨ Path u) ∧ grp xNamedAction s 1 = n ∧ grp xNamedAction s 2 = m ∧ grp xNamedAction s 3 = u ∧
      (∀ a' y, s = a' ++ y → Blanks a' → (∃ n m u, NamedActionLine y n m u) → a'.length ≤ a.length) ∧
      ∀ n' m' b' u', s = a ++ n' ++ asc '[' :: m' ++ b' ++ u' ++ [asc ']'] → n' ≠ [] → m' ∈ methods → Blanks b' →
        (u' = [] ∨ Path u') → n'.length ≤ n.length := by
  obtain ⟨a, y, rfl, ha, hy, h1, ma⟩ := caps_seq h
  obtain ⟨n, z, rfl, hn, hz, h2, mn⟩ := caps_seq hy
  obtain ⟨z, rfl, hz, h3⟩ := k_cons hz
  obtain ⟨m, z, rfl, hm, hz, h4, _⟩ := caps_seq hz
  obtain ⟨b, z, rfl, hb, hz, h5, _⟩ := caps_seq hz
  obtain ⟨u, z, rfl, hu, hz, h6, _⟩ := caps_seq hz
  rw [l_char] at hz; subst hz
  rw [lang_group, l_method] at hm
  rw [lang_group, l_anyPlus] at hn
  have h1 : caps xNamedAction _ = _ := h1
  have hu' := hu
  rw [l_opt, lang_group, l_uri] at hu'
  refine ⟨a, n, m, b, u, by simp; decide, l_blanks.mp ha, hn, hm, l_blanks.mp hb, hu', ?_, ?_, ?_, ?_, ?_⟩
  · rw [grp, h1, h2, h3, h4, h5, h6]; simp [k_blanks, k_group, List.lookup]
  · rw [grp, h1, h2, h3, h4, h5, h6]; simp [k_blanks, k_group, k_anyPlus, List.lookup]
  · rw [grp, h1, h2, h3, h4, h5, h6]
    rcases k_opt hu with ⟨_, h7⟩ | ⟨_, rfl, h7⟩
    · simp [k_blanks, k_group, k_anyPlus, k_method, h7, List.lookup]
    · simp [k_blanks, k_group, k_anyPlus, k_method, k_char, h7, List.lookup]
  · intro a' y he ha' ⟨n', m', u', hl⟩
    have hl : Lang xNamedAction y := L_namedAction.mpr ⟨n', m', u', hl⟩
    obtain ⟨c, y, rfl, hc, hy⟩ := lang_seq.mp hl
    have := ma (a' ++ c) y (by rw [he]; simp) (l_blanks.mpr (by
      rw [l_blanks] at hc; intro d hd; rcases List.mem_append.mp hd with h | h
      · exact ha' d h
      · exact hc d h)) hy
    simp at this; omega
  · intro n' m' b' u' he hn' hm' hb' hu'
    refine mn n' (91 :: (m' ++ (b' ++ (u' ++ [93])))) ?_ (by rw [lang_group, l_anyPlus]; exact hn') ?_
    · simp only [List.append_assoc, List.cons_append] at he
      exact List.append_cancel_left he
    · rw [l_cons]
      refine ⟨_, rfl, lang_seq.mpr ⟨m', _, rfl, by rw [lang_group, l_method]; exact hm', lang_seq.mpr ⟨b', _, rfl,
        l_blanks.mpr hb', lang_seq.mpr ⟨u', _, rfl, ?_, l_char.mpr rfl⟩⟩⟩⟩
      rw [l_opt, lang_group, l_uri]; exact hu'

theorem g_resource {s} (h : Lang xResource s) :
    ∃ a e u, s = a ++ e ++ u ∧ Blanks a ∧ Path u ∧ grp xResource s 3 = u ∧
      ((e = [] ∧ grp xResource s 2 = []) ∨ ∃ m b, e = m ++ b ∧ m ∈ methods ∧ Gap b ∧ grp xResource s 2 = m) := by
  obtain ⟨a, y, rfl, ha, hy, h1, _⟩ := caps_seq h
  obtain ⟨e, u, rfl, he, hu, h2, _⟩ := caps_seq hy
  have h1 : caps xResource _ = _ := h1
  rw [lang_group, l_uri] at hu
  rcases k_opt he with ⟨h3, h4⟩ | ⟨_, rfl, h4⟩
  · rw [lang_group] at h3
    obtain ⟨m, b, rfl, hm, hb, h5, _⟩ := caps_seq h3
    rw [lang_group, l_method] at hm
    rw [l_gap] at hb
    refine ⟨a, m ++ b, u, by simp, l_blanks.mp ha, hu, ?_, .inr ⟨m, b, rfl, hm, hb, ?_⟩⟩
    · rw [grp, h1, h2, h4, k_group, h5]; simp [k_blanks, k_group, k_method, k_gap, List.lookup]
    · rw [grp, h1, h2, h4, k_group, h5]; simp [k_blanks, k_group, k_method, k_gap, List.lookup]
  · refine ⟨a, [], u, by simp, l_blanks.mp ha, hu, ?_, .inl ⟨rfl, ?_⟩⟩
    · rw [grp, h1, h2, h4]; simp [k_blanks, k_group, List.lookup]
    · rw [grp, h1, h2, h4]; simp [k_blanks, k_group, k_uri, List.lookup]

theorem g_namedResource {s} (h : Lang xNamedResource s) :
    ∃ n u, NamedResourceLine s n u ∧ grp xNamedResource s 1 = n ∧ grp xNamedResource s 2 = u := by
  obtain ⟨a, y, rfl, ha, hy, h1, _⟩ := caps_seq h
  obtain ⟨n, z, rfl, hn, hz, h2, _⟩ := caps_seq hy
  obtain ⟨b, z, rfl, hb, hz, h3, _⟩ := caps_seq hz
  obtain ⟨z, rfl, hz, h4⟩ := k_cons hz
  obtain ⟨u, z, rfl, hu, hz, h5, _⟩ := caps_seq hz
  rw [l_char] at hz; subst hz
  rw [lang_group, l_symbol] at hn
  rw [lang_group, l_uri] at hu
  have h1 : caps xNamedResource _ = _ := h1
  refine ⟨n, u, ⟨a, b, by simp; decide, l_blanks.mp ha, hn, l_gap.mp hb, hu⟩, ?_, ?_⟩
  · rw [grp, h1, h2, h3, h4, h5]; simp [k_blanks, k_group, List.lookup]
  · rw [grp, h1, h2, h3, h4, h5]; simp [k_blanks, k_group, k_symbol, k_gap, List.lookup]

theorem g_namedEndpoint {s} (h : Lang xNamedEndpoint s) :
    ∃ n m u, NamedEndpointLine s n m u ∧ grp xNamedEndpoint s 1 = n ∧ grp xNamedEndpoint s 2 = m ∧
      grp xNamedEndpoint s 3 = u := by
  obtain ⟨a, y, rfl, ha, hy, h1, _⟩ := caps_seq h
  obtain ⟨n, z, rfl, hn, hz, h2, _⟩ := caps_seq hy
  obtain ⟨b, z, rfl, hb, hz, h3, _⟩ := caps_seq hz
  obtain ⟨z, rfl, hz, h4⟩ := k_cons hz
  obtain ⟨m, z, rfl, hm, hz, h5, _⟩ := caps_seq hz
  obtain ⟨c, z, rfl, hc, hz, h6, _⟩ := caps_seq hz
  obtain ⟨u, z, rfl, hu, hz, h7, _⟩ := caps_seq hz
  rw [l_char] at hz; subst hz
  rw [lang_group, l_symbol] at hn
  rw [lang_group, l_uri] at hu
  rw [lang_group, l_method] at hm
  have h1 : caps xNamedEndpoint _ = _ := h1
  refine ⟨n, m, u, ⟨a, b, c, by simp; decide, l_blanks.mp ha, hn, l_gap.mp hb, hm, l_gap.mp hc, hu⟩, ?_, ?_, ?_⟩
  · rw [grp, h1, h2, h3, h4, h5, h6, h7]; simp [k_blanks, k_group, List.lookup]
  · rw [grp, h1, h2, h3, h4, h5, h6, h7]; simp [k_blanks, k_group, k_symbol, k_gap, List.lookup]
  · rw [grp, h1, h2, h3, h4, h5, h6, h7]; simp [k_blanks, k_group, k_symbol, k_gap, k_method, List.lookup]

theorem g_group {s} (h : Lang xGroup s) : ∃ n, GroupLine s n ∧ grp xGroup s 1 = n := by
  obtain ⟨a, y, rfl, ha, hy, h1, _⟩ := caps_seq h
  obtain ⟨w, z, rfl, hw, hz, h2⟩ := k_kw hy
  obtain ⟨b, z, rfl, hb, hz, h3, _⟩ := caps_seq hz
  obtain ⟨n, c, rfl, hn, hc, h4, _⟩ := caps_seq hz
  rw [lang_group, l_symbol] at hn
  have h1 : caps xGroup _ = _ := h1
  refine ⟨n, ⟨a, w, b, c, by simp, l_blanks.mp ha, hw, l_gap.mp hb, hn, l_blanks.mp hc⟩, ?_⟩
  rw [grp, h1, h2, h3, h4]; simp [k_blanks, k_group, k_gap, List.lookup]

theorem g_relationIdentifier {s} (h : Lang xRelationIdentifier s) :
    ∃ b i c, RelationLine s (b ++ i ++ c) ∧ Blanks b ∧ (i = [] ∨ Identifier i) ∧ Blanks c ∧
      grp xRelationIdentifier s 1 = i := by
  obtain ⟨a, y, rfl, ha, hy, h1, _⟩ := caps_seq h
  obtain ⟨w, z, rfl, hw, hz, h2⟩ := k_kw hy
  obtain ⟨b, z, rfl, hb, hz, h3, _⟩ := caps_seq hz
  obtain ⟨z, rfl, hz, h4⟩ := k_cons hz
  obtain ⟨c, z, rfl, hc, hz, h5, _⟩ := caps_seq hz
  obtain ⟨i, d, rfl, hi, hd, h6, _⟩ := caps_seq hz
  have h1 : caps xRelationIdentifier _ = _ := h1
  have hi' := hi
  rw [l_opt, lang_group, l_identifier] at hi'
  refine ⟨c, i, d, ⟨a, w, b, by simp; decide, l_blanks.mp ha, hw, l_blanks.mp hb⟩, l_blanks.mp hc, hi', l_blanks.mp hd, ?_⟩
  rw [grp, h1, h2, h3, h4, h5, h6]
  rcases k_opt hi with ⟨_, h7⟩ | ⟨_, rfl, h7⟩
  · simp [k_blanks, k_group, h7, List.lookup]
  · simp [k_blanks, h7, List.lookup]

end Verif.Recognition
