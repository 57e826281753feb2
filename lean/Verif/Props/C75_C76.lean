import Verif.Props.C74
/-!
# C75, C76: the parts of headers

C75: actions.  C76: resources and groups.
-/
namespace Verif.Props
open Verif Verif.Text Verif.Signature Verif.Regex Verif.Spec Verif.Spec.Regex Verif.Spec.Recognition Verif.Section
open Verif.Recognition

/-! ## C75: the header of an action -/

theorem seen_solid {l s} (h : Seen l s) : Recognition.Solid s := by
  obtain ⟨t, h1, h2, h3⟩ := h
  have hb : Bare t := h1.choose_spec.choose_spec.2.2.2
  intro c hc
  have : t.head? = some c := by
    rcases h3 with rfl | ⟨r, rfl⟩
    · exact hc
    · cases s with
      | nil => simp at hc
      | cons d s => simpa using hc
  exact solid_bare hb c this

theorem solid_noBlanks {a x : Bytes} (h : Recognition.Solid (a ++ x)) (ha : Blanks a) : a = [] := by
  cases a with
  | nil => rfl
  | cons c a =>
    have := h c rfl
    rcases ha c (by simp) with rfl | rfl
    · exact absurd rfl this.1
    · exact absurd rfl this.2

theorem parts_plain {text l s m u} (hl : FirstLine text l) (hs : Seen l s) (h : ActionLine s m u) :
    actionParts text = ⟨[], m, []⟩ := by
  rw [firstLine_iff] at hl
  rw [seen_iff] at hs
  unfold actionParts
  simp only [← hl]
  have hx : Lang xAction (cstr (trim l)) := L_action.mpr ⟨m, u, hs ▸ h⟩
  obtain ⟨g, h1, h2⟩ := regexCapture_full 3 c_action (by decide) n_action hx
  rw [h1]
  simp only []
  have h3 := h2 1 (by omega)
  rw [if_neg (by decide)] at h3
  rw [h3]
  obtain ⟨a, m', b, u', he, g1, g2, g3, g4, g5, _⟩ := g_action hx
  have := (actionLine_unique h ⟨a, b, hs ▸ he, g1, g2, g3, g4⟩).1
  rw [this, ← g5]; rfl

/-- C75: a header `METHOD` or `METHOD /uri` gives an action with that method and no name. -/
theorem C75_plain (text l s m u : Bytes) (hl : FirstLine text l) (hs : Seen l s) (h : ActionLine s m u) :
    (actionSignature text).1 = ⟨[], m, []⟩ := by
  simp only [actionSignature, parts_plain hl hs h]; rfl

/-- C75: any other header of the form `name [METHOD …]` gives an action with its name, method and URI; if there are several
ways to read it, the name is as long as it can be. -/
theorem C75_named (text l s : Bytes) (hl : FirstLine text l) (hs : Seen l s) (hp : ¬ ∃ m u, ActionLine s m u)
    (h : ∃ n m u, NamedActionLine s n m u) :
    ∃ n t m u, NamedActionLine s n m u ∧ (∀ n' m' u', NamedActionLine s n' m' u' → n'.length ≤ n.length) ∧
      Trimmed n t ∧ (actionSignature text).1 = ⟨t, m, u⟩ := by
  have hsol := seen_solid hs
  rw [firstLine_iff] at hl
  rw [seen_iff] at hs
  have hx : Lang xNamedAction (cstr (trim l)) := L_namedAction.mpr (hs ▸ h)
  obtain ⟨g, h1, h2⟩ := regexCapture_full 4 c_namedAction (by decide) n_namedAction hx
  obtain ⟨a, n, m, b, u, he, g1, g2, g3, g4, g5, g6, g7, g8, _, g10⟩ := g_namedAction hx
  rw [← hs] at he g10
  have ha : a = [] := by
    have : s = a ++ (n ++ asc '[' :: m ++ b ++ u ++ [asc ']']) := by rw [he]; simp
    rw [this] at hsol
    exact solid_noBlanks hsol g1
  subst ha
  refine ⟨n, trim n, m, u, ⟨[], b, he, g1, g2, g3, g4, g5⟩, ?_, trim_spec n, ?_⟩
  · rintro n' m' u' ⟨a', b', he', ha', hn', hm', hb', hu'⟩
    have ha'' : a' = [] := by
      have : s = a' ++ (n' ++ asc '[' :: m' ++ b' ++ u' ++ [asc ']']) := by rw [he']; simp
      rw [this] at hsol
      exact solid_noBlanks hsol ha'
    subst ha''
    exact g10 n' m' b' u' he' hn' hm' hb' hu'
  · have hno : regexCapture (trim l) actionHeaderRegex 3 = none :=
      regexCapture_full_none 3 c_action (by rw [L_action, ← hs]; exact hp)
    simp only [actionSignature, actionParts, ← hl, hno, h1]
    have e1 := h2 1 (by omega)
    have e2 := h2 2 (by omega)
    have e3 := h2 3 (by omega)
    rw [if_neg (by decide)] at e1 e2 e3
    rw [e1, e2, e3]
    show (⟨trim (grp xNamedAction _ 1), grp xNamedAction _ 2, grp xNamedAction _ 3⟩ : ActionParts) = _
    rw [g6, g7, g8]

theorem last_bracket {x r x' r' : Bytes} {c : UInt8} (h : x ++ c :: r = x' ++ c :: r') (hr : c ∉ r)
    (hl : x.length ≤ x'.length) : x = x' := by
  rcases Nat.lt_or_ge x.length x'.length with hlt | hge
  · exfalso
    have hp : x ++ [c] <+: x' := List.prefix_of_prefix_length_le (l₃ := x ++ c :: r) ⟨r, by simp⟩ ⟨c :: r', h.symm⟩
      (by simp; omega)
    obtain ⟨y, rfl⟩ := hp
    simp only [List.append_assoc, List.cons_append, List.nil_append] at h
    have := List.append_cancel_left h
    simp only [List.cons.injEq, true_and] at this
    exact hr (this ▸ by simp)
  · exact (List.append_inj h (Nat.le_antisymm hl hge)).1

/-- C75: if the URI has no bracket, there is no other way to read the header. -/
theorem C75_named_exact (text l s n t m u : Bytes) (hl : FirstLine text l) (hs : Seen l s)
    (hp : ¬ ∃ m u, ActionLine s m u) (h : NamedActionLine s n m u) (hu : asc '[' ∉ u) (ht : Trimmed n t) :
    (actionSignature text).1 = ⟨t, m, u⟩ := by
  have hsol := seen_solid hs
  obtain ⟨n', t', m', u', h1, h2, h3, h4⟩ := C75_named text l s hl hs hp ⟨n, m, u, h⟩
  have hmax := h2 n m u h
  obtain ⟨a, b, he, ha, hn, hm, hb, hu1⟩ := h
  obtain ⟨a', b', he', ha', hn', hm', hb', hu'⟩ := h1
  have ea : a = [] := by
    have : s = a ++ (n ++ asc '[' :: m ++ b ++ u ++ [asc ']']) := by rw [he]; simp
    rw [this] at hsol
    exact solid_noBlanks hsol ha
  have ea' : a' = [] := by
    have : s = a' ++ (n' ++ asc '[' :: m' ++ b' ++ u' ++ [asc ']']) := by rw [he']; simp
    rw [this] at hsol
    exact solid_noBlanks hsol ha'
  subst ea; subst ea'
  rw [he] at he'
  have he2 : n ++ asc '[' :: (m ++ (b ++ (u ++ [asc ']']))) = n' ++ asc '[' :: (m' ++ (b' ++ (u' ++ [asc ']']))) := by
    simpa using he'
  have hnn : n = n' := by
    refine last_bracket he2 ?_ hmax
    simp only [List.mem_append, not_or]
    exact ⟨method_no hm (by decide), blanks_no hb (by decide) (by decide), hu, by decide⟩
  subst hnn
  have := List.append_cancel_left he2
  simp only [List.cons.injEq, true_and] at this
  obtain ⟨rfl, this2⟩ := method_unique hm hm' this
  have hc := cancel_blanks (x := u ++ [asc ']']) (y := u' ++ [asc ']']) this2 hb hb' (by
      rcases hu1 with rfl | hu1
      · intro c hc; simp at hc; subst hc; decide
      · exact solid_append (path_ne hu1) (solid_path hu1)) (by
      rcases hu' with rfl | hu'
      · intro c hc; simp at hc; subst hc; decide
      · exact solid_append (path_ne hu') (solid_path hu'))
  rw [h4, ← List.append_cancel_right hc.2, ← trim_unique ht, ← trim_unique h3]

/-- C75: a header of neither form gives no parts. -/
theorem C75_none (text l s : Bytes) (hl : FirstLine text l) (hs : Seen l s) (h : ¬ ActionForm s) :
    (actionSignature text).1 = ⟨[], [], []⟩ := by
  rw [firstLine_iff] at hl
  rw [seen_iff] at hs
  have h1 : regexCapture (trim l) actionHeaderRegex 3 = none :=
    regexCapture_full_none 3 c_action (by rw [L_action, ← hs]; exact fun h' => h (.inl h'))
  have h2 : regexCapture (trim l) namedActionHeaderRegex 4 = none :=
    regexCapture_full_none 4 c_namedAction (by rw [L_namedAction, ← hs]; exact fun h' => h (.inr h'))
  simp only [actionSignature, actionParts, ← hl, h1, h2]; rfl

/-- C75: what follows the first line stays for the description. -/
theorem C75_rest (text l : Bytes) (hl : FirstLine text l) :
    (text = l ∧ (actionSignature text).2 = []) ∨ text = l ++ asc '\n' :: (actionSignature text).2 := by
  rw [firstLine_iff] at hl
  show (_ ∧ (getFirstLine text).2 = []) ∨ text = l ++ asc '\n' :: (getFirstLine text).2
  rw [hl]
  unfold getFirstLine
  rcases splitOnFirst_cases (asc '\n') text with ⟨h, hn⟩ | ⟨a, b, h, hl, hn⟩
  · rw [h]; exact .inl ⟨rfl, rfl⟩
  · rw [h]; exact .inr hl

/-- C75 is false for the URI of an action: the header `GET /a[GET]` reads as `METHOD /uri`, and its method is taken from
there, but it also reads as an action named `GET /a`; so it counts as an action without a URI of its own, and the URI is
nowhere. -/
theorem C75_uri_refuted : ∃ (n : Node) (s m u : Bytes), n.kind = .header ∧ Seen n.text s ∧ Path u ∧ ActionLine s m u ∧
    recognise.actionType n = .dependent ∧ (actionSignature n.text).1 = ⟨[], m, []⟩ := by
  refine ⟨header "GET /a[GET]", str "GET /a[GET]", str "GET", str "/a[GET]", rfl, seen_iff.mpr (by decide +kernel),
    ⟨str "a[GET]", by decide⟩, ?_, ?_, ?_⟩
  · exact ⟨[], [32], by decide, blanks_nil, by decide, by simp [Blanks], .inr ⟨str "a[GET]", by decide⟩⟩
  · decide +kernel
  · decide +kernel

/-! ## C76: the headers of resources and groups -/

/-- The text is one line without white space around it. -/
def Neat (text : Bytes) : Prop := Bare text ∧ 0 ∉ text ∧ asc '\n' ∉ text

theorem neat_cstr {text} (h : Neat text) : cstr text = text := (cstr_iff.mpr ⟨h.2.1, .inl rfl⟩).symm
theorem neat_seen {text} (h : Neat text) : Seen text text := seen_iff.mpr (by rw [trim_bare h.1, neat_cstr h])
theorem neat_first {text} (h : Neat text) : FirstLine text text := ⟨h.2.2, .inl rfl⟩

theorem parts_resource {text} (h : Lang xResource (cstr text)) :
    ∃ a e u, cstr text = a ++ e ++ u ∧ Blanks a ∧ Path u ∧
      ((e = [] ∧ resourceParts text = ⟨[], u, none⟩) ∨
        ∃ m b, e = m ++ b ∧ m ∈ methods ∧ Gap b ∧ resourceParts text = ⟨[], u, some (actionSignature text).1⟩) := by
  obtain ⟨g, h1, h2⟩ := regexCapture_full 4 c_resource (by decide) n_resource h
  obtain ⟨a, e, u, he, ha, hu, g3, g2⟩ := g_resource h
  have e2 := h2 2 (by omega)
  have e3 := h2 3 (by omega)
  rw [if_neg (by decide)] at e2 e3
  have e2 : g.getD 2 [] = grp xResource (cstr text) 2 := e2
  have e3 : g.getD 3 [] = grp xResource (cstr text) 3 := e3
  refine ⟨a, e, u, he, ha, hu, ?_⟩
  unfold resourceParts
  simp only [h1, e2, e3, g3]
  rcases g2 with ⟨rfl, g2⟩ | ⟨m, b, rfl, hm, hb, g2⟩
  · left; rw [g2]; exact ⟨rfl, rfl⟩
  · right
    refine ⟨m, b, rfl, hm, hb, ?_⟩
    have : m.isEmpty = false := by have := methods_ne hm; simpa using this
    rw [g2, this]; rfl

/-- C76: a header `/uri` gives a resource with that URI and no name. -/
theorem C76_uri (text s u : Bytes) (hs : s = cstr text) (h : UriLine s u) : resourceParts text = ⟨[], u, none⟩ := by
  subst hs
  obtain ⟨a, e, u', he, ha, hu', h1⟩ := parts_resource (L_resource.mpr (.inl ⟨u, h⟩))
  rcases h1 with ⟨rfl, h1⟩ | ⟨m, b, rfl, hm, hb, h1⟩
  · rw [h1, uriLine_unique h ⟨a, by rw [he]; simp, ha, hu'⟩]
  · exact (uri_not_action h (endpoint_action ⟨a, b, by rw [he]; simp, ha, hm, hb, hu'⟩)).elim

theorem parts_endpoint {text m u : Bytes} (h : EndpointLine (cstr text) m u) :
    resourceParts text = ⟨[], u, some (actionSignature text).1⟩ := by
  obtain ⟨a, e, u', he, ha, hu', h1⟩ := parts_resource (L_resource.mpr (.inr ⟨m, u, h⟩))
  rcases h1 with ⟨rfl, h1⟩ | ⟨m', b, rfl, hm, hb, h1⟩
  · exact (uri_not_action ⟨a, by rw [he]; simp, ha, hu'⟩ (endpoint_action h)).elim
  · rw [h1, (endpointLine_unique h ⟨a, b, by rw [he]; simp, ha, hm, hb, hu'⟩).2]

/-- C76: a header `METHOD /uri` gives a resource with that URI and no name, and an action with that method. -/
theorem C76_endpoint (text m u : Bytes) (hn : Neat text) (h : EndpointLine text m u) :
    resourceParts text = ⟨[], u, some ⟨[], m, []⟩⟩ := by
  rw [parts_endpoint (m := m) (u := u) (by rw [neat_cstr hn]; exact h),
    C75_plain text text text m u (neat_first hn) (neat_seen hn) (endpoint_action h)]

theorem resource_none {text} (h : ¬ ((∃ u, UriLine (cstr text) u) ∨ ∃ m u, EndpointLine (cstr text) m u)) :
    regexCapture text resourceHeaderRegex 4 = none :=
  regexCapture_full_none 4 c_resource (by rw [L_resource]; exact h)

theorem parts_namedEndpoint {text n t m u : Bytes}
    (hno : ¬ ((∃ u, UriLine (cstr text) u) ∨ ∃ m u, EndpointLine (cstr text) m u))
    (h : NamedEndpointLine (cstr text) n m u) (ht : Trimmed n t) :
    resourceParts text = ⟨t, u, some (actionSignature text).1⟩ := by
  have hx : Lang xNamedEndpoint (cstr text) := L_namedEndpoint.mpr ⟨n, m, u, h⟩
  obtain ⟨g, h1, h2⟩ := regexCapture_full 5 c_namedEndpoint (by decide) n_namedEndpoint hx
  obtain ⟨n', m', u', h3, g1, _, g3⟩ := g_namedEndpoint hx
  have e1 := h2 1 (by omega)
  have e3 := h2 3 (by omega)
  rw [if_neg (by decide)] at e1 e3
  have e1 : g.getD 1 [] = grp xNamedEndpoint (cstr text) 1 := e1
  have e3 : g.getD 3 [] = grp xNamedEndpoint (cstr text) 3 := e3
  obtain ⟨u1, _, u3⟩ := namedEndpointLine_unique h h3
  simp only [resourceParts, resource_none hno, h1, e1, e3, g1, g3]
  rw [← u1, ← u3, trim_unique ht]

/-- C76: a header `name [METHOD /uri]` gives a resource with that name and URI, and an action with that name, method and URI. -/
theorem C76_named_endpoint (text n t m u : Bytes) (hn : Neat text)
    (hno : ¬ ((∃ u, UriLine text u) ∨ ∃ m u, ActionLine text m u))
    (h : NamedEndpointLine text n m u) (ht : Trimmed n t) (hu : asc '[' ∉ u) :
    resourceParts text = ⟨t, u, some ⟨t, m, u⟩⟩ := by
  obtain ⟨b, hb, ha⟩ := namedEndpoint_action h
  rw [parts_namedEndpoint (n := n) (t := t) (m := m) (u := u) ?_ (by rw [neat_cstr hn]; exact h) ht]
  · congr 2
    refine C75_named_exact text text text (n ++ b) t m u (neat_first hn) (neat_seen hn) (fun h => hno (.inr h)) ha hu ?_
    rw [← trim_iff, trim_append_right (blanks_blank hb.2)]; exact trim_unique ht
  · rw [neat_cstr hn]
    rintro (h | ⟨m, u, h⟩)
    · exact hno (.inl h)
    · exact hno (.inr ⟨m, u, endpoint_action h⟩)

/-- C76: a header `name [/uri]` gives a resource with that name and URI. -/
theorem C76_named (text s n t u : Bytes) (hs : s = cstr text)
    (hno : ¬ ((∃ u, UriLine s u) ∨ ∃ m u, EndpointLine s m u)) (h : NamedResourceLine s n u) (ht : Trimmed n t) :
    resourceParts text = ⟨t, u, none⟩ := by
  subst hs
  have hx : Lang xNamedResource (cstr text) := L_namedResource.mpr ⟨n, u, h⟩
  obtain ⟨g, h1, h2⟩ := regexCapture_full 4 c_namedResource (by decide) n_namedResource hx
  obtain ⟨n', u', h3, g1, g3⟩ := g_namedResource hx
  have e1 := h2 1 (by omega)
  have e3 := h2 2 (by omega)
  rw [if_neg (by decide)] at e1 e3
  have e1 : g.getD 1 [] = grp xNamedResource (cstr text) 1 := e1
  have e3 : g.getD 2 [] = grp xNamedResource (cstr text) 2 := e3
  obtain ⟨u1, u3⟩ := namedResourceLine_unique h h3
  have hne : regexCapture text namedEndpointHeaderRegex 5 = none :=
    regexCapture_full_none 5 c_namedEndpoint (by
      rw [L_namedEndpoint]; rintro ⟨n', m', u', h'⟩; exact namedResource_not_endpoint h h')
  simp only [resourceParts, resource_none hno, hne, namedResource, h1, e1, e3, g1, g3]
  rw [← u1, ← u3, trim_unique ht]

/-- C76: a header that is recognised as a resource gives it a URI, provided that its text is one line without white space
around it. -/
theorem C76_has_uri (n : Node) (hn : Neat n.text) (h : recognise.resourceType n = .resource) :
    Path (resourceParts n.text).uri := by
  obtain ⟨_, s, hs, hf⟩ := (C74_resource n).mp h
  rw [seen_iff, trim_bare hn.1, neat_cstr hn] at hs
  subst hs
  by_cases h1 : (∃ u, UriLine n.text u) ∨ ∃ m u, EndpointLine n.text m u
  · rcases h1 with ⟨u, h1⟩ | ⟨m, u, h1⟩
    · rw [C76_uri n.text n.text u (neat_cstr hn).symm h1]; obtain ⟨a, _, _, hu⟩ := h1; exact hu
    · rw [C76_endpoint n.text m u hn h1]; obtain ⟨a, b, _, _, _, _, hu⟩ := h1; exact hu
  · rcases hf with hf | hf | ⟨n', u, hf⟩ | ⟨n', m, u, hf⟩
    · exact absurd (.inl hf) h1
    · exact absurd (.inr hf) h1
    · rw [C76_named n.text n.text n' (trim n') u (neat_cstr hn).symm h1 hf (trim_spec _)]
      obtain ⟨a, b, _, _, _, _, hu⟩ := hf; exact hu
    · rw [parts_namedEndpoint (by rw [neat_cstr hn]; exact h1) (by rw [neat_cstr hn]; exact hf) (trim_spec _)]
      obtain ⟨a, b, c, _, _, _, _, _, _, hu⟩ := hf; exact hu

/-- C76 is false for a header that ends with white space other than blanks: it is recognised as a resource, but has no name
and no URI, since one function removes the white space and the other does not. -/
theorem C76_has_uri_refuted : ∃ n : Node, recognise.resourceType n = .resource ∧ resourceParts n.text = ⟨[], [], none⟩ :=
  ⟨.mk .header (str "A [/a]" ++ [12]) [] [], by decide +kernel, by decide +kernel⟩

/-- C76 is false for a URI with a bracket: the resource and its action are given different names and URIs. -/
theorem C76_named_endpoint_refuted : resourceParts (str "A [GET /[GET /]]") =
    ⟨str "A", str "/[GET /]", some ⟨str "A [GET /", str "GET", str "/]"⟩⟩ := by decide +kernel

/-- C76: a header `Group name` gives the group its name. -/
theorem C76_group (text s n t : Bytes) (hs : s = cstr text) (h : GroupLine s n) (ht : Trimmed n t) : groupName text = t := by
  subst hs
  have hx : Lang xGroup (cstr text) := L_group.mpr ⟨n, h⟩
  obtain ⟨g, h1, h2⟩ := regexCapture_full 3 c_group (by decide) n_group hx
  obtain ⟨n', h3, g1⟩ := g_group hx
  have e1 := h2 1 (by omega)
  rw [if_neg (by decide)] at e1
  have e1 : g.getD 1 [] = grp xGroup (cstr text) 1 := e1
  simp only [groupName, h1, e1, g1]
  rw [← groupLine_name h h3, trim_unique ht]

theorem bare_suffix {x y : Bytes} (h : Bare (x ++ y)) (hy : y ≠ []) : ¬ Blank y := by
  intro hb
  have := h.2 (y.getLast hy) (by rw [List.getLast?_append, List.getLast?_eq_some_getLast hy]; rfl)
  exact this (hb _ (List.getLast_mem hy))

/-- C76: a header that is recognised as a group has a name, provided that its text is one line without white space around it. -/
theorem C76_group_named (n : Node) (hn : Neat n.text) (h : recognise.groupType n = .resourceGroup) : groupName n.text ≠ [] := by
  obtain ⟨_, s, name, hs, hf⟩ := (C74_group n).mp h
  rw [seen_iff, trim_bare hn.1, neat_cstr hn] at hs
  subst hs
  rw [C76_group n.text n.text name (trim name) (neat_cstr hn).symm hf (trim_spec _)]
  intro h0
  obtain ⟨a, w, b, c, he, ha, hw, hb, hname, hc⟩ := hf
  have hbn : Blank name := by
    obtain ⟨x, y, h1, h2, h3, _⟩ := trim_iff.mp h0
    rw [h1]; intro d hd; simp only [List.append_nil, List.mem_append] at hd
    rcases hd with hd | hd
    · exact h2 d hd
    · exact h3 d hd
  have hbare := hn.1
  rw [he, List.append_assoc (a ++ w ++ b)] at hbare
  refine bare_suffix hbare (by have := hname.1; simp_all) ?_
  intro d hd
  rcases List.mem_append.mp hd with hd | hd
  · exact hbn d hd
  · exact blanks_blank hc d hd

/-- C76 is false for a header that starts with white space other than blanks: it is recognised as a group, but has no name. -/
theorem C76_group_named_refuted : ∃ n : Node, recognise.groupType n = .resourceGroup ∧ groupName n.text = [] :=
  ⟨.mk .header (12 :: str "Group A") [] [], by decide +kernel, by decide +kernel⟩

/-! ## Cases -/

example : (actionSignature (str "L [GET /u]")).1 = ⟨str "L", str "GET", str "/u"⟩ := by decide +kernel
example : (actionSignature (str "L [a] [GET]")).1 = ⟨str "L [a]", str "GET", []⟩ := by decide +kernel
example : Neat (str "User [/users/{id}]") := by
  refine ⟨⟨?_, ?_⟩, by decide, by decide⟩ <;> · intro c hc; simp [str] at hc; subst hc; simp [White]; decide
example : resourceParts (str "User [/{id}]") = ⟨str "User", str "/{id}", none⟩ := by decide +kernel
example : groupName (str "Group My users ") = str "My users" := by decide +kernel
example : NamedActionLine (str "A [GET]") (str "A ") (str "GET") [] :=
  ⟨[], [], by decide, blanks_nil, by decide, by decide, blanks_nil, .inl rfl⟩

end Verif.Props
