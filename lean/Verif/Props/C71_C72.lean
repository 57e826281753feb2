import Verif.Props.C70
/-!
# C71, C72: descriptions; properties, inclusions and alternatives
-/
namespace Verif.Props
open Verif Verif.Refract Verif.Registry Verif.Spec Verif.Spec.DataStructure Verif.DataStructure
open Verif.NamedTypes (BaseName TypeName)
open Verif.Mson (Value TypeDef TypeSpec ValueDef PropertyName)

/-! ## C71 -/

theorem paragraphs_cons (s : Bytes) (l : List Bytes) :
    paragraphs (s :: l) = if s = [] then paragraphs l else if paragraphs l = [] then s else s ++ str "\n" ++ paragraphs l := by
  unfold paragraphs
  by_cases hs : s = []
  · simp [hs]
  · have hf : (s :: l).filter (· ≠ []) = s :: l.filter (· ≠ []) := by simp [hs]
    rw [hf, if_neg hs]
    cases hl : l.filter (· ≠ []) with
    | nil => simp [List.intercalate]
    | cons a r =>
      have ha : a ≠ [] := by
        have : a ∈ l.filter (· ≠ []) := by rw [hl]; simp
        simpa using (List.mem_filter.1 this).2
      have hne : List.intercalate (str "\n") (a :: r) ≠ [] := by
        cases r with
        | nil => simpa [List.intercalate] using ha
        | cons b r => simp [List.intercalate, ha]
      rw [if_neg hne]
      simp [List.intercalate]

theorem join_text (l : List (Bytes × SourceMap)) (acc : Bytes × SourceMap) :
    (l.foldl joinDescription acc).1 = paragraphs (acc.1 :: l.map (·.1)) := by
  induction l generalizing acc with
  | nil => simp only [List.foldl_nil, List.map_nil]; rw [paragraphs_cons]; simp [paragraphs]
  | cons p l ih =>
    rw [List.foldl_cons, ih, List.map_cons]
    unfold joinDescription
    by_cases hp : p.1 = []
    · have : p.1.isEmpty = true := by simp [hp]
      rw [if_pos this, paragraphs_cons acc.1 (p.1 :: _), paragraphs_cons p.1, if_pos hp, ← paragraphs_cons]
    · have : ¬ p.1.isEmpty = true := by simp [hp]
      rw [if_neg this, paragraphs_cons acc.1 (p.1 :: _), paragraphs_cons p.1, if_neg hp]
      by_cases ha : acc.1 = []
      · have : acc.1.isEmpty = true := by simp [ha]
        simp only
        rw [if_pos this, if_pos ha, ha, List.nil_append, paragraphs_cons, if_neg hp]
      · have : ¬ acc.1.isEmpty = true := by simp [ha]
        simp only
        rw [if_neg this, if_neg ha, paragraphs_cons, if_neg (by simp [hp])]
        by_cases hl : paragraphs (l.map (·.1)) = []
        · simp [hl, hp]
        · rw [if_neg hl, if_neg hl, if_neg (by simp [hp])]; simp

theorem descriptionOf_none (e : Elem) (h : Infos.find e.metas (str "description") = none) : descriptionOf e = none := by
  unfold descriptionOf; rw [h]

theorem setDescription_of (l : List (Bytes × SourceMap)) (e : Elem) (h : descriptionOf e = none) :
    descriptionOf (setDescription l e) = unlessEmpty (paragraphs (l.map (·.1))) := by
  have hj := join_text l ([], [])
  simp only [paragraphs_cons, if_true] at hj
  unfold setDescription descriptionE unlessEmpty
  simp only
  rw [hj]
  by_cases hp : paragraphs (l.map (·.1)) = []
  · simp only [hp, List.isEmpty_nil, if_true]; exact h
  · have : ¬ (paragraphs (l.map (·.1))).isEmpty = true := by simp [hp]
    rw [if_neg this, if_neg hp]
    simp only [descriptionOf, metas_setMeta, Infos.find_set, if_true]
    have k := keeps_attach (l.foldl joinDescription ([], [])).2 (strE (paragraphs (l.map (·.1))))
    generalize attach (l.foldl joinDescription ([], [])).2 (strE (paragraphs (l.map (·.1)))) = x at k
    cases x with
    | mk n m a hh d =>
      have h1 := k.data
      have h2 := k.has
      simp only [Elem.data, Elem.has, strE, makeElement] at h1 h2
      subst h1 h2
      rfl

theorem parts_descriptions (r : Reg) (t nested : BaseName) (ss : List Section) (d d' : Parts) (h : (convertSections r t nested ss d).result = .ok d') :
    d'.descriptions = d.descriptions ++ blocks ss := by
  by_cases hp : Primitive t
  · rw [(sections_primitive r t nested hp ss d d' h).1]
  · exact (sections_complex r t nested hp ss d d' h).descriptions

theorem setTypeAttributes_metas (b : Nat) (e : Elem) : (setTypeAttributes b e).metas = e.metas := by
  unfold setTypeAttributes; split
  · rfl
  · rw [metas_setAttr]
theorem attach_metas (m : SourceMap) (e : Elem) : (attach m e).metas = e.metas := by
  unfold attach; split
  · rfl
  · rw [metas_setAttr]

/-- C71: the description of a member of a list, of an enumeration or of alternatives is that of its line, if the line is used, and those of
    its blocks, one below the other; without any there is none. -/
theorem C71_value (r : Reg) (nested : BaseName) (m : Member) (e : Elem) (h : (convertMember r none nested m).result = .ok (some e)) :
    descriptionOf e = unlessEmpty (paragraphs ((if Lined m.definition then [m.description] else []) ++ (blocks m.sections).map (·.1))) := by
  obtain ⟨t, v, d0, d, ht, hc, ho, _⟩ := member_value r nested m _ h
  cases ho
  have hk := data_kind t d _ v hc.data (baseE_kind t m).1
  rw [setDescription_of]
  · rw [parts_descriptions r t _ m.sections d0 d hc.sections, (extractValue_ok r t _ _ _ _ d0 hc.line).2.2.2.2.1]
    congr 1
    rw [List.map_append]
    by_cases hl : Lined m.definition
    · by_cases hd : m.description = []
      · simp [hl, hd, paragraphs_cons]
      · simp [hl, hd]
    · simp [hl]
  · unfold descriptionOf
    rw [setTypeAttributes_metas, hk.2.2.2, (baseE_kind t m).2.2.2.1]; rfl

theorem propertyDescriptions_eq (de : Bytes) (dm : SourceMap) (ss : List Section) :
    propertyDescriptions de dm ss = if de = [] then blocks ss else (if blocks ss = [] then de else de ++ str "\n", dm) :: blocks ss := by
  have hb : ss.filterMap blockOf = blocks ss := by
    unfold blocks
    induction ss with
    | nil => rfl
    | cons s ss ih =>
      cases s with
      | mk k de v es dm vm =>
        have hf : (Section.mk k de v es dm vm :: ss).filter (fun s => decide (s.klass = .description)) =
            if k = .description then .mk k de v es dm vm :: ss.filter (fun s => decide (s.klass = .description))
            else ss.filter (fun s => decide (s.klass = .description)) := by
          cases k <;> rfl
        rw [List.filterMap_cons, ih, hf]
        cases k <;> rfl
  unfold propertyDescriptions
  simp only
  rw [hb]
  by_cases hd : de = []
  · simp [hd]
  · have : ¬ de.isEmpty = true := by simp [hd]
    rw [if_neg this, if_neg hd]
    by_cases hn : blocks ss = []
    · simp [hn]
    · have : ¬ (blocks ss).isEmpty = true := by simp [hn]
      rw [if_neg this, if_neg hn]

/-- C71: that of a property is that of its line, followed by a blank line if there are blocks, and those of its blocks. -/
theorem C71_property (r : Reg) (n : PropertyName) (nm : SourceMap) (nested : BaseName) (m : Member) (e : Elem)
    (h : (convertMember r (some (n, nm)) nested m).result = .ok (some e)) :
    descriptionOf e = unlessEmpty (paragraphs ((if m.description = [] then [] else
      [if blocks m.sections = [] then m.description else m.description ++ str "\n"]) ++ (blocks m.sections).map (·.1))) := by
  obtain ⟨key, _, hh⟩ := member_property r n nm nested m _ h
  rcases hh with ⟨_, ho, _⟩ | ⟨_, t, v, d0, d, ht, hc, ho, _⟩
  · cases ho
  · cases ho
    rw [setDescription_of, propertyDescriptions_eq]
    · congr 2
      by_cases hd : m.description = [] <;> simp [hd]
    · refine descriptionOf_none _ ?_
      rw [setTypeAttributes_metas]
      unfold memberE; split <;> rfl

/-- C71: that of a named type is those of its blocks. -/
theorem C71_named (r : Reg) (ds : NamedType) (e : Elem) (h : (msonToRefract r ds).result = .ok (some e)) :
    descriptionOf e = unlessEmpty (paragraphs ((blocks ds.sections).map (·.1))) := by
  rcases named_ok r ds _ h with ⟨_, _, _, ho⟩ | ⟨_, t, d0, d, e', ht', h0, h1, hd, ho, hw⟩
  · cases ho
  · cases ho
    have hk := data_kind t d _ e hd (namedE_kind t ds _)
    have hde : d.descriptions = blocks ds.sections := by
      rw [parts_descriptions r t _ ds.sections d0 d h1]
      rcases addHints_ok r t ds.type {} d0 h0 with ⟨_, rfl⟩ | ⟨_, ls, _, rfl⟩ <;> rfl
    have : descriptionOf e = descriptionOf (namedE t ds d.descriptions) := by unfold descriptionOf; rw [hk.2.2.2]
    rw [this]
    unfold namedE
    rw [setDescription_of, hde]
    refine descriptionOf_none _ ?_
    rw [setTypeAttributes_metas, attach_metas]
    split
    · unfold setType; split <;> cases t <;> rfl
    · rw [metas_setMeta, Infos.find_set, if_neg (by decide)]; unfold setType; split <;> cases t <;> rfl

/-- C71: no description that is used is lost: each one that is not empty is found in the text. -/
theorem C71_kept (l : List Bytes) (s : Bytes) (h : s ∈ l) : s <:+: paragraphs l := by
  induction l with
  | nil => simp at h
  | cons a l ih =>
    rw [paragraphs_cons]
    rcases List.mem_cons.1 h with rfl | h
    · by_cases hs : s = []
      · subst hs; exact List.nil_infix
      · rw [if_neg hs]; split
        · exact List.infix_rfl
        · exact ⟨[], str "\n" ++ paragraphs l, by simp⟩
    · have := ih h
      split
      · exact this
      · split
        · rename_i hp
          rw [hp] at this
          have : s = [] := by simpa using this
          subst this; exact List.nil_infix
        · exact this.trans ⟨a ++ str "\n", [], by simp⟩

/-- C71 is false of the line of a member that is an object and has no name: its description is lost. -/
theorem C71_line_refuted : ∃ (m : Member) (e : Elem), (convertMember [] none .string m).result = .ok (some e) ∧ m.description = str "d" ∧
    m.sections = [] ∧ descriptionOf e = none :=
  ⟨.mk (str "d") ⟨[], ⟨.object, ⟨⟨some .object, [], false⟩, []⟩, 0⟩⟩ [] [] [] [], _, rfl, rfl, rfl, rfl⟩

example : ∃ e, (convertMember [] (some ({ literal := str "k" }, [])) .string (.mk (str "a") ⟨[], ⟨.value, {}, 0⟩⟩
      [.mk .description (str "b") [] [] [] [], .mk .description (str "c") [] [] [] []] [] [] [])).result = .ok (some e) ∧
    descriptionOf e = some (str "a\n\nb\nc") := by refine ⟨_, rfl, ?_⟩; decide +kernel

/-! ## C72 -/

theorem definitionEmpty_iff (n : PropertyName) : definitionEmpty n.isVariable = false ↔ HasVariable n := by
  unfold definitionEmpty typeEmpty nameEmpty HasVariable
  cases hv : n.isVariable.values <;> cases hn : n.isVariable.type.spec.nested <;> cases hb : n.isVariable.type.spec.name.base <;>
    cases hl : n.isVariable.type.spec.name.literal <;> cases hi : n.isVariable.type.spec.name.isVariable <;> simp

/-- The key of a property. -/
theorem propertyKey_ok (r : Reg) (n : PropertyName) (nm : SourceMap) (k : Elem) (h : (propertyKey r n nm).result = .ok k) :
    Key n k ∧ Infos.find k.attributes (str "samples") = none ∧ Infos.find k.attributes (str "default") = none := by
  unfold propertyKey at h
  simp only [W.bind_ok] at h
  obtain ⟨k0, h0, hk⟩ := h
  cases hk
  have ka := keeps_attach nm (if n.literal.isEmpty then k0 else k0.setData (.string n.literal))
  -- the key before the name is set
  have main : k0.name = keyType n ∧ (∀ s, (n.isVariable.values.head?).map (·.literal) = some s → k0.has = true ∧ k0.data = .string s) ∧
      ((n.isVariable.values.head?).map (·.literal) = none → k0.has = false ∧ k0.data = .string []) ∧ k0.attributes = [] := by
    split at h0
    · rename_i he
      have hh : ¬ HasVariable n := fun a => by rw [(definitionEmpty_iff n).2 a] at he; cases he
      unfold HasVariable at hh
      simp only [not_or, not_not] at hh
      cases h0
      refine ⟨?_, ?_, fun _ => ⟨rfl, rfl⟩, rfl⟩
      · unfold keyType; rw [if_neg (by simpa using hh.2.2.2.2.1)]; rfl
      · intro s hs; rw [hh.1] at hs; simp at hs
    · simp only [W.bind_ok, W.warn_result, W.pure_result, Except.ok.injEq] at h0
      obtain ⟨_, _, k1, h1, rfl⟩ := h0
      have m1 : k1.name = keyType n ∧ k1.has = false ∧ k1.data = .string [] ∧ k1.attributes = [] := by
        split at h1
        · rename_i hte
          cases h1
          refine ⟨?_, rfl, rfl, rfl⟩
          unfold keyType
          have : n.isVariable.type.spec.name.literal = [] := by
            unfold typeEmpty nameEmpty at hte
            simp only [Bool.and_eq_true, List.isEmpty_iff] at hte
            exact hte.2.2.2.1
          rw [if_neg (by simpa using this)]; rfl
        · simp only [W.bind_ok] at h1
          obtain ⟨ok, _, h1⟩ := h1
          split at h1
          · cases h1
            unfold setType keyType
            by_cases hl : n.isVariable.type.spec.name.literal = []
            · simp only [hl, List.isEmpty_nil, if_true, ne_eq, not_true_eq_false, if_false]
              exact ⟨rfl, rfl, rfl, rfl⟩
            · have : ¬ n.isVariable.type.spec.name.literal.isEmpty = true := by simp [hl]
              rw [if_neg this, if_pos hl]
              exact ⟨rfl, rfl, rfl, rfl⟩
          · cases h1
      cases hv : n.isVariable.values.head? with
      | none =>
        simp only [Option.map_none, reduceCtorEq, false_implies, implies_true, true_and, forall_const]
        exact ⟨m1.1, ⟨m1.2.1, m1.2.2.1⟩, m1.2.2.2⟩
      | some v =>
        simp only [Option.map_some, Option.some.injEq, reduceCtorEq, false_implies, true_and]
        rw [name_setData, has_setData, data_setData, attributes_setData]
        exact ⟨m1.1, fun s hs => ⟨rfl, by rw [hs]⟩, m1.2.2.2⟩
  have attrs : ∀ q, q ≠ str "sourceMap" → Infos.find (attach nm (if n.literal.isEmpty then k0 else k0.setData (.string n.literal))).attributes q = none := by
    intro q hq
    rw [ka.attributes q (by simpa using hq)]
    split
    · rw [main.2.2.2]; rfl
    · rw [attributes_setData, main.2.2.2]; rfl
  refine ⟨⟨?_, ?_, ?_⟩, attrs _ (by decide), attrs _ (by decide)⟩
  · rw [ka.name]; split
    · exact main.1
    · rw [name_setData]; exact main.1
  · intro s hs
    rw [ka.has, ka.data]
    unfold textOfKey at hs
    by_cases hl : n.literal = []
    · rw [if_neg (by simpa using hl)] at hs
      have : n.literal.isEmpty = true := by simp [hl]
      rw [if_pos this]; exact main.2.1 s hs
    · rw [if_pos hl] at hs
      have : ¬ n.literal.isEmpty = true := by simp [hl]
      rw [if_neg this, has_setData, data_setData]
      cases hs; exact ⟨rfl, rfl⟩
  · intro hs
    rw [ka.has, ka.data]
    unfold textOfKey at hs
    by_cases hl : n.literal = []
    · rw [if_neg (by simpa using hl)] at hs
      have : n.literal.isEmpty = true := by simp [hl]
      rw [if_pos this]; exact main.2.2.1 hs
    · rw [if_pos hl] at hs; cases hs

theorem validKey_iff (n : PropertyName) (k : Elem) (h : Key n k) (hs : Infos.find k.attributes (str "samples") = none)
    (hd : Infos.find k.attributes (str "default") = none) : validKey k = false ↔ Nameless n := by
  unfold validKey Nameless
  rw [h.name, ← isReserved_iff]
  have hfs : findFirstSample k = none := by unfold findFirstSample; rw [hs]
  have hfd : findDefault k = none := by unfold findDefault; rw [hd]
  cases hr : isReserved (keyType n) with
  | false => simp
  | true =>
    simp only [Bool.not_true, Bool.false_eq_true, if_false, true_and]
    cases ht : textOfKey n with
    | none =>
      have := h.noText ht
      simp [findValue, this.1, hfs, hfd]
    | some s =>
      have := h.text s ht
      simp [findValue, this.1, this.2]

/-- C72: a property becomes a member with its key and its value, marked as variable if it is one. -/
theorem C72_property (r : Reg) (n : PropertyName) (nm : SourceMap) (nested : BaseName) (m : Member) (e : Elem)
    (h : (convertMember r (some (n, nm)) nested m).result = .ok (some e)) : ∃ k v, Property n k v e := by
  obtain ⟨key, hk, hh⟩ := member_property r n nm nested m _ h
  rcases hh with ⟨_, ho, _⟩ | ⟨_, t, v, d0, d, ht, hc, ho, _⟩
  · cases ho
  · cases ho
    have k := (keeps_setTypeAttributes m.definition.type.attributes (memberE n key v)).trans
      (keeps_setDescription (propertyDescriptions m.description m.descriptionMap m.sections) _)
    refine ⟨key, v, (propertyKey_ok r n nm key hk).1, ⟨?_, ?_⟩, ?_, ?_, ?_⟩
    · rw [k.has]; unfold memberE; split <;> rfl
    · rw [k.data]; unfold memberE; split <;> rfl
    · rw [k.name]; unfold memberE; split <;> rfl
    · intro hv
      rw [attr, k.attributes _ (by decide)]
      unfold memberE
      rw [(definitionEmpty_iff n).2 hv]
      rfl
    · intro hv
      rw [attr, k.attributes _ (by decide)]
      unfold memberE
      have : definitionEmpty n.isVariable = true := by
        cases hd : definitionEmpty n.isVariable with
        | true => rfl
        | false => exact absurd ((definitionEmpty_iff n).1 hd) hv
      rw [this]
      rfl

/-- C72: it is left out exactly if it has no key that could be shown. -/
theorem C72_dropped (r : Reg) (n : PropertyName) (nm : SourceMap) (nested : BaseName) (m : Member) (o : Option Elem)
    (h : (convertMember r (some (n, nm)) nested m).result = .ok o) : o = none ↔ Nameless n := by
  obtain ⟨key, hk, hh⟩ := member_property r n nm nested m _ h
  have hkk := propertyKey_ok r n nm key hk
  have := validKey_iff n key hkk.1 hkk.2.1 hkk.2.2
  rcases hh with ⟨hv, ho, _⟩ | ⟨hv, t, v, d0, d, ht, hc, ho, _⟩
  · subst ho; simp [this.1 hv]
  · subst ho
    simp only [reduceCtorEq, false_iff]
    intro a; rw [this.2 a] at hv; cases hv

/-- C72: other members are never left out. -/
theorem C72_kept (r : Reg) (nested : BaseName) (m : Member) (o : Option Elem) (h : (convertMember r none nested m).result = .ok o) : o ≠ none := by
  obtain ⟨t, v, d0, d, ht, hc, ho, _⟩ := member_value r nested m _ h
  rw [ho]; simp

/-- C72: the elements of a section are converted one by one, in their order, and nothing but those without a key is left out; the warnings
    are theirs, in the same order. -/
theorem C72_order (r : Reg) (nested : BaseName) (es : List Element) (l : List Elem) (h : (convertElements r nested es).result = .ok l) :
    ∃ os, List.Forall₂ (fun e o => (convertElement r nested e).result = .ok o) es os ∧ l = os.flatMap Option.toList ∧
      (convertElements r nested es).warnings = es.flatMap fun e => (convertElement r nested e).warnings := by
  induction es generalizing l with
  | nil => simp only [convertElements] at h; cases h; exact ⟨[], .nil, rfl, by simp [convertElements]⟩
  | cons e es ih =>
    simp only [convertElements, W.bind_ok, W.pure_result, Except.ok.injEq] at h
    obtain ⟨o, ho, l', hl, rfl⟩ := h
    obtain ⟨os, h1, h2, h3⟩ := ih l' hl
    refine ⟨o :: os, .cons ho h1, by rw [List.flatMap_cons, h2], ?_⟩
    simp only [convertElements]
    rw [W.bind_warnings _ _ _ ho, W.bind_warnings _ _ _ hl, h3]
    simp

theorem symbolOf_eq (n : TypeName) : symbolOf n = symbol n := by
  unfold symbolOf symbol
  cases hb : n.base with
  | none =>
    simp only
    split
    · rename_i hc
      simp only [Bool.and_eq_true, List.isEmpty_iff] at hc; exact hc.1.symm
    · rfl
  | some t =>
    by_cases hl : n.literal = [] <;> cases hv : n.isVariable <;> simp [hl, kind_name]

/-- C72: an inclusion becomes a reference to the content of the type. -/
theorem C72_mixin (r : Reg) (nested : BaseName) (t : TypeDef) : (convertElement r nested (.mixin t)).result = .ok (some (inclusion t.spec.name)) := by
  simp only [convertElement, W.pure_result, mixinE, symbolOf_eq]; rfl

theorem selectE_eq (l : List Elem) : selectE l = alternatives l := by
  unfold selectE alternatives
  cases l with
  | nil => rfl
  | cons a r => simp [makeElement]; rfl

/-- What an alternative becomes: one choice with the elements that are made of it. -/
inductive OptionOf (r : Reg) : Element → Elem → Prop
  | property {n nm m o} : (convertMember r (some (n, nm)) .string m).result = .ok o → OptionOf r (.property n nm m) (oneChoice o.toList)
  | value {m o} : (convertMember r none .string m).result = .ok o → OptionOf r (.value m) (oneChoice o.toList)
  | mixin {t} : OptionOf r (.mixin t) (oneChoice [inclusion t.spec.name])
  | oneOf {es os} : List.Forall₂ (OptionOf r) es os → OptionOf r (.oneOf es) (oneChoice [alternatives os])
  | group {es l} : (convertElements r .string es).result = .ok l → OptionOf r (.group es) (oneChoice l)

mutual
theorem options_of (r : Reg) : (es : List Element) → ∀ os, (convertOptions r es).result = .ok os → List.Forall₂ (OptionOf r) es os
  | [], os, h => by simp only [convertOptions] at h; cases h; exact .nil
  | e :: es, os, h => by
    simp only [convertOptions, W.bind_ok, W.pure_result, Except.ok.injEq] at h
    obtain ⟨o, ho, l, hl, rfl⟩ := h
    exact .cons (option_of r e o ho) (options_of r es l hl)
termination_by structural es => es
theorem option_of (r : Reg) : (e : Element) → ∀ o, (convertOption r e).result = .ok o → OptionOf r e o
  | .empty, o, h => by simp [convertOption, W.stop] at h
  | .property n nm m, o, h => by
    simp only [convertOption, W.bind_ok, W.pure_result, Except.ok.injEq] at h
    obtain ⟨x, hx, rfl⟩ := h
    exact .property hx
  | .value m, o, h => by
    simp only [convertOption, W.bind_ok, W.pure_result, Except.ok.injEq] at h
    obtain ⟨x, hx, rfl⟩ := h
    exact .value hx
  | .mixin t, o, h => by
    simp only [convertOption, W.pure_result, Except.ok.injEq] at h
    subst h
    have : optionE (some (mixinE t)) = oneChoice [inclusion t.spec.name] := by simp only [mixinE, symbolOf_eq]; rfl
    rw [this]; exact .mixin
  | .oneOf es, o, h => by
    simp only [convertOption, W.bind_ok, W.pure_result, Except.ok.injEq] at h
    obtain ⟨l, hl, rfl⟩ := h
    rw [selectE_eq]
    exact .oneOf (options_of r es l hl)
  | .group es, o, h => by
    simp only [convertOption, W.bind_ok, W.pure_result, Except.ok.injEq] at h
    obtain ⟨l, hl, rfl⟩ := h
    exact .group hl
termination_by structural e => e
end

/-- C72: alternatives become a selection with one choice for each of them, in their order. -/
theorem C72_oneOf (r : Reg) (nested : BaseName) (es : List Element) (o : Option Elem) (h : (convertElement r nested (.oneOf es)).result = .ok o) :
    ∃ os, List.Forall₂ (OptionOf r) es os ∧ o = some (alternatives os) := by
  simp only [convertElement, W.bind_ok, W.pure_result, Except.ok.injEq] at h
  obtain ⟨l, hl, rfl⟩ := h
  exact ⟨l, options_of r es l hl, by rw [selectE_eq]⟩

/-- `- *id*: x` in an object: a variable property. -/
example : ∃ e, (convertMember [] (some (⟨[], ⟨[⟨str "id", true⟩], {}⟩⟩, [])) .string (.mk [] ⟨[⟨str "x", false⟩], {}⟩ [] [] [] [])).result = .ok (some e) ∧
    e.data = .member (some (text (str "id"))) (some (text (str "x"))) ∧ attr e "variable" = some (.mk (str "boolean") [] [] true (.boolean true)) := by
  refine ⟨_, rfl, ?_, ?_⟩ <;> rfl
example : Nameless ⟨[], {}⟩ := ⟨by unfold reserved; decide +kernel, .inl rfl⟩

end Verif.Props
