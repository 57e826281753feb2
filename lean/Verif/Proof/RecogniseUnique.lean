import Verif.Proof.RecogniseCapture
/-! The forms of headers: their parts are unique and the forms exclude each other. -/
namespace Verif.Recognition
open Verif Verif.Text Verif.Signature Verif.Regex Verif.Spec Verif.Spec.Regex Verif.Spec.Recognition Verif.Section

theorem blanks_blank {a} (h : Blanks a) : Blank a := by
  intro c hc; rcases h c hc with rfl | rfl <;> simp [White]
theorem blanks_nil : Blanks [] := by simp [Blanks]
theorem blanks_append {a b} (ha : Blanks a) (hb : Blanks b) : Blanks (a ++ b) := by
  intro c hc; rcases List.mem_append.mp hc with h | h
  · exact ha c h
  · exact hb c h
theorem blanks_left {a b} (h : Blanks (a ++ b)) : Blanks a := fun c hc => h c (by simp [hc])
theorem blanks_right {a b} (h : Blanks (a ++ b)) : Blanks b := fun c hc => h c (by simp [hc])

/-- The text does not begin with a blank. -/
def Solid (x : Bytes) : Prop := ∀ c, x.head? = some c → c ≠ 32 ∧ c ≠ 9

theorem solid_append {x y} (h : x ≠ []) (hx : Solid x) : Solid (x ++ y) := by
  cases x with
  | nil => exact absurd rfl h
  | cons c x => exact hx
theorem solid_method {m} (h : m ∈ methods) : Solid m := by
  have : ∀ m ∈ methods, m.head? ≠ some 32 ∧ m.head? ≠ some 9 := by decide
  intro c hc; have := this m h; rw [hc] at this; simpa using this
theorem solid_path {u} (h : Path u) : Solid u := by
  obtain ⟨r, rfl⟩ := h; intro c hc; simp at hc; subst hc; decide
theorem solid_bare {t} (h : Bare t) : Solid t := by
  intro c hc; have := h.1 c hc; constructor <;> (rintro rfl; exact this (by simp [White]))

theorem cancel_blanks : ∀ {a a' x y : Bytes}, a ++ x = a' ++ y → Blanks a → Blanks a' → Solid x → Solid y → a = a' ∧ x = y
  | [], [], x, y, h, _, _, _, _ => ⟨rfl, h⟩
  | [], c :: a', x, y, h, _, ha', hx, _ => by
    rw [List.nil_append, List.cons_append] at h
    have := hx c (by rw [h]; rfl)
    rcases ha' c (by simp) with rfl | rfl
    · exact absurd rfl this.1
    · exact absurd rfl this.2
  | c :: a, [], x, y, h, ha, _, _, hy => by
    rw [List.nil_append, List.cons_append] at h
    have := hy c (by rw [← h]; rfl)
    rcases ha c (by simp) with rfl | rfl
    · exact absurd rfl this.1
    · exact absurd rfl this.2
  | c :: a, d :: a', x, y, h, ha, ha', hx, hy => by
    simp only [List.cons_append, List.cons.injEq] at h
    obtain ⟨rfl, h⟩ := h
    obtain ⟨rfl, h2⟩ := cancel_blanks h (fun d hd => ha d (by simp [hd])) (fun d hd => ha' d (by simp [hd])) hx hy
    exact ⟨rfl, h2⟩

theorem solid_nil_path {u} (h : u = [] ∨ Path u) : Solid u := by
  rcases h with rfl | h
  · intro c hc; simp at hc
  · exact solid_path h

/-- No method is the beginning of another. -/
theorem method_unique {m m' x y : Bytes} (hm : m ∈ methods) (hm' : m' ∈ methods) (h : m ++ x = m' ++ y) : m = m' ∧ x = y := by
  have key : ∀ m ∈ methods, ∀ m' ∈ methods, m.isPrefixOf m' = true → m = m' := by decide +kernel
  have : m = m' := by
    rcases Nat.le_total m.length m'.length with hl | hl
    · refine key m hm m' hm' (List.isPrefixOf_iff_prefix.mpr ?_)
      exact List.prefix_of_prefix_length_le ⟨x, h⟩ ⟨y, rfl⟩ hl
    · refine (key m' hm' m hm (List.isPrefixOf_iff_prefix.mpr ?_)).symm
      exact List.prefix_of_prefix_length_le ⟨y, h.symm⟩ ⟨x, rfl⟩ hl
  subst this
  exact ⟨rfl, List.append_cancel_left h⟩

theorem method_take {m x : Bytes} (hm : m ∈ methods) : (m ++ x).take 2 = m.take 2 := by
  have : ∀ m ∈ methods, 2 ≤ m.length := by decide
  rw [List.take_append_of_le_length (this m hm)]
theorem method_letters {m} (hm : m ∈ methods) : ∀ c ∈ m, 65 ≤ c ∧ c ≤ 90 := by
  have : ∀ m ∈ methods, ∀ c ∈ m, 65 ≤ c ∧ c ≤ 90 := by decide
  exact this m hm

/-! ## Unique parts -/

theorem actionLine_solid {a m b u : Bytes} (hm : m ∈ methods) : Solid (m ++ (b ++ u)) :=
  solid_append (methods_ne hm) (solid_method hm)

theorem actionLine_unique {s m u m' u'} (h : ActionLine s m u) (h' : ActionLine s m' u') : m = m' ∧ u = u' := by
  obtain ⟨a, b, rfl, ha, hm, hb, hu⟩ := h
  obtain ⟨a', b', he, ha', hm', hb', hu'⟩ := h'
  simp only [List.append_assoc] at he
  obtain ⟨_, he⟩ := cancel_blanks he ha ha' (solid_append (methods_ne hm) (solid_method hm))
    (solid_append (methods_ne hm') (solid_method hm'))
  obtain ⟨rfl, he2⟩ := method_unique hm hm' he
  obtain ⟨rfl, rfl⟩ := cancel_blanks he2 hb hb' (solid_nil_path hu) (solid_nil_path hu')
  exact ⟨rfl, rfl⟩

theorem endpoint_action {s m u} (h : EndpointLine s m u) : ActionLine s m u := by
  obtain ⟨a, b, rfl, ha, hm, hb, hu⟩ := h
  exact ⟨a, b, rfl, ha, hm, hb.2, .inr hu⟩
theorem namedEndpoint_action {s n m u} (h : NamedEndpointLine s n m u) : ∃ b, Gap b ∧ NamedActionLine s (n ++ b) m u := by
  obtain ⟨a, b, c, rfl, ha, hn, hb, hm, hc, hu⟩ := h
  exact ⟨b, hb, a, c, by simp, ha, by have := hn.1; simp_all, hm, hc.2, .inr hu⟩

theorem endpointLine_unique {s m u m' u'} (h : EndpointLine s m u) (h' : EndpointLine s m' u') : m = m' ∧ u = u' :=
  actionLine_unique (endpoint_action h) (endpoint_action h')

theorem uriLine_unique {s u u'} (h : UriLine s u) (h' : UriLine s u') : u = u' := by
  obtain ⟨a, rfl, ha, hu⟩ := h
  obtain ⟨a', he, ha', hu'⟩ := h'
  exact (cancel_blanks he ha ha' (solid_path hu) (solid_path hu')).2

theorem uri_not_action {s u m u'} (h : UriLine s u) (h' : ActionLine s m u') : False := by
  obtain ⟨a, rfl, ha, ⟨r, rfl⟩⟩ := h
  obtain ⟨a', b, he, ha', hm, hb, hu'⟩ := h'
  simp only [List.append_assoc] at he
  obtain ⟨_, he⟩ := cancel_blanks he ha ha' (solid_path ⟨r, rfl⟩) (solid_append (methods_ne hm) (solid_method hm))
  cases m with
  | nil => exact methods_ne hm rfl
  | cons c m =>
    simp only [List.cons_append, List.cons.injEq] at he
    have := method_letters hm c (by simp)
    rw [← he.1] at this
    exact absurd this (by decide)

theorem name_noBracket {n} (h : Name n) : asc '[' ∉ n := fun hc => (h.2 _ hc).1 rfl
theorem blanks_no {a : Bytes} {c : UInt8} (h : Blanks a) (h1 : c ≠ 32) (h2 : c ≠ 9) : c ∉ a := by
  intro hc; rcases h c hc with h | h
  · exact h1 h
  · exact h2 h
theorem method_no {m : Bytes} {c : UInt8} (h : m ∈ methods) (hc : ¬ (65 ≤ c ∧ c ≤ 90)) : c ∉ m :=
  fun hm => hc (method_letters h c hm)

theorem head_noBracket {a n b : Bytes} (ha : Blanks a) (hn : Name n) (hb : Blanks b) : asc '[' ∉ a ++ n ++ b := by
  simp only [List.mem_append, not_or]
  exact ⟨⟨blanks_no ha (by decide) (by decide), name_noBracket hn⟩, blanks_no hb (by decide) (by decide)⟩

theorem trim_around {a n b : Bytes} (ha : Blanks a) (hb : Blanks b) : trim (a ++ n ++ b) = trim n := by
  rw [trim_append_right (blanks_blank hb), trim_append_left (blanks_blank ha)]

/-- The part in front of the first bracket. -/
theorem bracket_split {a n b r a' n' b' r' : Bytes} (ha : Blanks a) (hn : Name n) (hb : Blanks b) (ha' : Blanks a')
    (hn' : Name n') (hb' : Blanks b') (h : a ++ n ++ b ++ asc '[' :: r = a' ++ n' ++ b' ++ asc '[' :: r') :
    trim n = trim n' ∧ r = r' := by
  obtain ⟨h1, h2⟩ := append_cons_inj h (head_noBracket ha hn hb) (head_noBracket ha' hn' hb')
  refine ⟨?_, h2⟩
  have := congrArg trim h1
  rwa [trim_around ha hb, trim_around ha' hb'] at this

theorem namedResourceLine_unique {s n u n' u'} (h : NamedResourceLine s n u) (h' : NamedResourceLine s n' u') :
    trim n = trim n' ∧ u = u' := by
  obtain ⟨a, b, rfl, ha, hn, hb, hu⟩ := h
  obtain ⟨a', b', he, ha', hn', hb', hu'⟩ := h'
  have he : a ++ n ++ b ++ asc '[' :: (u ++ [asc ']']) = a' ++ n' ++ b' ++ asc '[' :: (u' ++ [asc ']']) := by
    simpa using he
  obtain ⟨h1, h2⟩ := bracket_split ha hn hb.2 ha' hn' hb'.2 he
  exact ⟨h1, List.append_cancel_right h2⟩

theorem namedEndpointLine_unique {s n m u n' m' u'} (h : NamedEndpointLine s n m u) (h' : NamedEndpointLine s n' m' u') :
    trim n = trim n' ∧ m = m' ∧ u = u' := by
  obtain ⟨a, b, c, rfl, ha, hn, hb, hm, hc, hu⟩ := h
  obtain ⟨a', b', c', he, ha', hn', hb', hm', hc', hu'⟩ := h'
  have he : a ++ n ++ b ++ asc '[' :: (m ++ (c ++ (u ++ [asc ']']))) =
      a' ++ n' ++ b' ++ asc '[' :: (m' ++ (c' ++ (u' ++ [asc ']']))) := by simpa using he
  obtain ⟨h1, h2⟩ := bracket_split ha hn hb.2 ha' hn' hb'.2 he
  obtain ⟨rfl, h3⟩ := method_unique hm hm' h2
  obtain ⟨_, h4⟩ := cancel_blanks h3 hc.2 hc'.2 (solid_append (path_ne hu) (solid_path hu))
    (solid_append (path_ne hu') (solid_path hu'))
  exact ⟨h1, rfl, List.append_cancel_right h4⟩

theorem namedResource_not_endpoint {s n u n' m' u'} (h : NamedResourceLine s n u) (h' : NamedEndpointLine s n' m' u') :
    False := by
  obtain ⟨a, b, rfl, ha, hn, hb, ⟨r, rfl⟩⟩ := h
  obtain ⟨a', b', c', he, ha', hn', hb', hm', hc', hu'⟩ := h'
  have he : a ++ n ++ b ++ asc '[' :: (asc '/' :: r ++ [asc ']']) =
      a' ++ n' ++ b' ++ asc '[' :: (m' ++ (c' ++ (u' ++ [asc ']']))) := by simpa using he
  obtain ⟨_, h2⟩ := bracket_split ha hn hb.2 ha' hn' hb'.2 he
  cases m' with
  | nil => exact methods_ne hm' rfl
  | cons c m =>
    simp only [List.cons_append, List.cons.injEq] at h2
    have := method_letters hm' c (by simp)
    rw [← h2.1] at this
    exact absurd this (by decide)

theorem groupLine_name {s n n'} (h : GroupLine s n) (h' : GroupLine s n') : trim n = trim n' := by
  obtain ⟨a, w, b, c, rfl, ha, hw, hb, hn, hc⟩ := h
  obtain ⟨a', w', b', c', he, ha', hw', hb', hn', hc'⟩ := h'
  have sol : ∀ {w x : Bytes}, Word 'G' 'g' "roup" w → Solid (w ++ x) := by
    rintro w x (rfl | rfl) c hc <;> · simp at hc; subst hc; decide
  simp only [List.append_assoc] at he
  obtain ⟨_, he⟩ := cancel_blanks he ha ha' (sol hw) (sol hw')
  have hl : w.length = w'.length := by rcases hw with rfl | rfl <;> rcases hw' with rfl | rfl <;> rfl
  obtain ⟨_, he2⟩ := List.append_inj he hl
  have := congrArg trim he2
  rwa [← List.append_assoc, ← List.append_assoc, trim_around hb.2 hc, trim_around hb'.2 hc'] at this

/-! ## Exclusive forms -/

theorem resource_slash {s} (h : ResourceForm s) : asc '/' ∈ s := by
  rcases h with ⟨u, a, rfl, _, ⟨r, rfl⟩⟩ | ⟨m, u, a, b, rfl, _, _, _, ⟨r, rfl⟩⟩ | ⟨n, u, a, b, rfl, _, _, _, ⟨r, rfl⟩⟩ |
    ⟨n, m, u, a, b, c, rfl, _, _, _, _, _, ⟨r, rfl⟩⟩ <;> simp

/-- The first letters of a word after blanks. -/
theorem word_first {a1 a2 : Char} {t : String} {a w x m y : Bytes} (ha : Blanks a) (hw : Word a1 a2 t w) (hm : m ∈ methods)
    {a' : Bytes} (ha' : Blanks a') (he : a ++ (w ++ x) = a' ++ (m ++ y))
    (h1 : asc a1 ≠ 32 ∧ asc a1 ≠ 9 ∧ asc a2 ≠ 32 ∧ asc a2 ≠ 9)
    (h2 : ∀ m ∈ methods, m.take 2 ≠ (asc a1 :: str t).take 2 ∧ m.take 2 ≠ (asc a2 :: str t).take 2)
    (h3 : 1 ≤ (str t).length) : False := by
  have hs : Solid (w ++ x) := by
    rcases hw with rfl | rfl <;> intro c hc <;> simp at hc <;> subst hc
    · exact ⟨h1.1, h1.2.1⟩
    · exact ⟨h1.2.2.1, h1.2.2.2⟩
  obtain ⟨_, he⟩ := cancel_blanks he ha ha' hs (solid_append (methods_ne hm) (solid_method hm))
  have ht := congrArg (List.take 2) he
  rw [method_take hm] at ht
  have hl : 2 ≤ w.length := by rcases hw with rfl | rfl <;> simp <;> omega
  rw [List.take_append_of_le_length hl] at ht
  rcases hw with rfl | rfl
  · exact (h2 m hm).1 ht.symm
  · exact (h2 m hm).2 ht.symm

theorem word_notSlash {a1 a2 : Char} {t : String} {a w x y a' : Bytes} (ha : Blanks a) (hw : Word a1 a2 t w)
    (ha' : Blanks a') (he : a ++ (w ++ x) = a' ++ (asc '/' :: y))
    (h1 : (asc a1 ≠ 32 ∧ asc a1 ≠ 9 ∧ asc a2 ≠ 32 ∧ asc a2 ≠ 9) ∧ asc a1 ≠ asc '/' ∧ asc a2 ≠ asc '/') : False := by
  have hs : Solid (w ++ x) := by
    rcases hw with rfl | rfl <;> intro c hc <;> simp at hc <;> subst hc
    · exact ⟨h1.1.1, h1.1.2.1⟩
    · exact ⟨h1.1.2.2.1, h1.1.2.2.2⟩
  obtain ⟨_, he⟩ := cancel_blanks he ha ha' hs (solid_path ⟨y, rfl⟩)
  rcases hw with rfl | rfl
  · simp only [List.cons_append, List.cons.injEq] at he; exact h1.2.1 he.1
  · simp only [List.cons_append, List.cons.injEq] at he; exact h1.2.2 he.1

theorem group_noBracket {s n} (h : GroupLine s n) : asc '[' ∉ s := by
  obtain ⟨a, w, b, c, rfl, ha, hw, hb, hn, hc⟩ := h
  simp only [List.mem_append, not_or]
  refine ⟨⟨⟨⟨blanks_no ha (by decide) (by decide), ?_⟩, blanks_no hb.2 (by decide) (by decide)⟩, name_noBracket hn⟩,
    blanks_no hc (by decide) (by decide)⟩
  rcases hw with rfl | rfl <;> decide

/-- Letters and blanks only. -/
theorem data_chars {s} (h : DataLine s) : ∀ c ∈ s, c = 32 ∨ c = 9 ∨ (65 ≤ c ∧ c ≤ 122 ∧ c ≠ 91 ∧ c ≠ 93) := by
  obtain ⟨a, v, b, w, c, rfl, ha, hv, hb, hw, hc⟩ := h
  intro d hd
  simp only [List.mem_append] at hd
  have bl : ∀ {a : Bytes}, Blanks a → d ∈ a → d = 32 ∨ d = 9 ∨ (65 ≤ d ∧ d ≤ 122 ∧ d ≠ 91 ∧ d ≠ 93) := by
    intro a h hd; rcases h d hd with h | h
    · exact .inl h
    · exact .inr (.inl h)
  rcases hd with (((hd | hd) | hd) | hd) | hd
  · exact bl ha hd
  · refine .inr (.inr ?_); clear bl; revert d
    rcases hv with rfl | rfl <;> decide
  · exact bl hb.2 hd
  · refine .inr (.inr ?_); clear bl; revert d
    rcases hw with (rfl | rfl) | (rfl | rfl) <;> decide
  · exact bl hc hd

theorem data_no {s} (h : DataLine s) {c : UInt8} (hc : ¬ (c = 32 ∨ c = 9 ∨ (65 ≤ c ∧ c ≤ 122 ∧ c ≠ 91 ∧ c ≠ 93))) : c ∉ s :=
  fun hm => hc (data_chars h c hm)

theorem resource_not_group {s n} (h : ResourceForm s) (hg : GroupLine s n) : False := by
  have hb := group_noBracket hg
  obtain ⟨a, w, b, c, he, ha, hw, _⟩ := hg
  rcases h with ⟨u, a', rfl, ha', ⟨r, rfl⟩⟩ | ⟨m, u, a', b', rfl, ha', hm, _⟩ | ⟨n', u, a', b', rfl, _⟩ |
    ⟨n', m, u, a', b', c', rfl, _⟩
  · simp only [List.append_assoc] at he
    exact word_notSlash ha hw ha' he.symm (by decide)
  · simp only [List.append_assoc] at he
    exact word_first ha hw hm ha' he.symm (by decide) (by decide) (by decide)
  · exact hb (by simp)
  · exact hb (by simp)

theorem resource_not_data {s} (h : ResourceForm s) (hd : DataLine s) : False :=
  data_no hd (by decide) (resource_slash h)

theorem group_not_data {s n} (hg : GroupLine s n) (hd : DataLine s) : False := by
  obtain ⟨a, w, b, c, he, ha, hw, _⟩ := hg
  obtain ⟨a', v, b', w', c', he', ha', hv, _⟩ := hd
  rw [he'] at he
  simp only [List.append_assoc] at he
  have s1 : ∀ {x}, Solid (w ++ x) := by
    intro x; rcases hw with rfl | rfl <;> intro c hc <;> simp at hc <;> subst hc <;> decide
  have s2 : ∀ {x}, Solid (v ++ x) := by
    intro x; rcases hv with rfl | rfl <;> intro c hc <;> simp at hc <;> subst hc <;> decide
  have := (cancel_blanks he ha' ha s2 s1).2
  rcases hw with rfl | rfl <;> rcases hv with rfl | rfl <;>
    · simp only [List.cons_append, List.cons.injEq] at this; exact absurd this.1 (by decide)

theorem action_not_group {s n} (h : ActionForm s) (hg : GroupLine s n) : False := by
  have hb := group_noBracket hg
  obtain ⟨a, w, b, c, he, ha, hw, _⟩ := hg
  rcases h with ⟨m, u, a', b', rfl, ha', hm, _⟩ | ⟨n', m, u, a', b', rfl, _⟩
  · simp only [List.append_assoc] at he
    exact word_first ha hw hm ha' he.symm (by decide) (by decide) (by decide)
  · exact hb (by simp)

theorem action_not_data {s} (h : ActionForm s) (hd : DataLine s) : False := by
  have hb : asc '[' ∉ s := data_no hd (by decide)
  obtain ⟨a, w, b, w', c, he, ha, hw, _⟩ := hd
  rcases h with ⟨m, u, a', b', rfl, ha', hm, _⟩ | ⟨n', m, u, a', b', rfl, _⟩
  · simp only [List.append_assoc] at he
    exact word_first ha hw hm ha' he.symm (by decide) (by decide) (by decide)
  · exact hb (by simp)

end Verif.Recognition
