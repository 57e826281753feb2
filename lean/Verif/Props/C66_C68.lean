import Verif.Proof.DataStructureMember
/-!
# C66 – C68: flags, types and texts of data structures
-/
namespace Verif.Props
open Verif Verif.Refract Verif.Registry Verif.Spec Verif.Spec.DataStructure Verif.DataStructure
open Verif.NamedTypes (BaseName TypeName)
open Verif.Mson (Value TypeDef TypeSpec ValueDef PropertyName)

/-! ## C66 -/

/-- C66: the flags of a member are shown, in their order, and are left out if there are none. -/
theorem C66_member (r : Reg) (name : Option (PropertyName × SourceMap)) (nested : BaseName) (m : Member) (e : Elem)
    (h : (convertMember r name nested m).result = .ok (some e)) :
    attr e "typeAttributes" = listed ((flagWords m.definition.type.attributes).map text) := by
  cases name with
  | none =>
    obtain ⟨t, v, d0, d, ht, hc, ho, _⟩ := member_value r nested m _ h
    cases ho
    rw [attr, (keeps_setDescription _ _).attributes _ (by simp)]
    refine find_setTypeAttributes _ _ ?_
    rw [(data_kind t d _ v hc.data (baseE_kind t m).1).2.2.1 _ (by decide)]
    exact baseE_attr t m _ (by decide)
  | some p =>
    obtain ⟨key, _, hh⟩ := member_property r p.1 p.2 nested m _ h
    rcases hh with ⟨_, ho, _⟩ | ⟨_, t, v, d0, d, ht, hc, ho, _⟩
    · cases ho
    · cases ho
      rw [attr, (keeps_setDescription _ _).attributes _ (by simp)]
      refine find_setTypeAttributes _ _ ?_
      unfold memberE
      split
      · rfl
      · rw [find_setAttr, if_neg (by decide)]; rfl

/-- C66: so are those of a named type. -/
theorem C66_named (r : Reg) (ds : NamedType) (e : Elem) (h : (msonToRefract r ds).result = .ok (some e)) :
    attr e "typeAttributes" = listed ((flagWords ds.type.attributes).map text) := by
  rcases named_ok r ds _ h with ⟨_, _, _, ho⟩ | ⟨_, t, d0, d, e', ht, _, _, hd, ho, _⟩
  · cases ho
  · cases ho
    have hk : (namedE t ds d.descriptions).kind = kindOf t := by
      unfold namedE
      rw [(keeps_setDescription _ _).kind, (keeps_setTypeAttributes _ _).kind, (keeps_attach _ _).kind]
      split
      · unfold setType; split <;> cases t <;> rfl
      · rw [(keeps_setMeta _ _ _).kind]; unfold setType; split <;> cases t <;> rfl
    rw [attr, (data_kind t d _ e hd hk).2.2.1 _ (by decide)]
    unfold namedE
    rw [(keeps_setDescription _ _).attributes _ (by simp)]
    refine find_setTypeAttributes _ _ ?_
    rw [(keeps_attach _ _).attributes _ (by decide)]
    split
    · unfold setType; split <;> cases t <;> rfl
    · rw [attributes_setMeta]; unfold setType; split <;> cases t <;> rfl

/-- C66: a member whose flags exclude one another is warned about, once for each such pair, before anything else is. -/
theorem C66_clash (r : Reg) (name : Option (PropertyName × SourceMap)) (nested : BaseName) (m : Member) (o : Option Elem)
    (h : (convertMember r name nested m).result = .ok o) :
    ∃ ws, (convertMember r name nested m).warnings = clashing m.definition.type.attributes ++ ws := by
  cases name with
  | none => obtain ⟨t, v, d0, d, ht, hc, ho, hw⟩ := member_value r nested m _ h; exact ⟨_, hw⟩
  | some p =>
    obtain ⟨key, _, hh⟩ := member_property r p.1 p.2 nested m _ h
    rcases hh with ⟨_, _, hw⟩ | ⟨_, t, v, d0, d, ht, hc, ho, hw⟩ <;> exact ⟨_, hw⟩

/-- C66: of a member without sections nothing else is said about flags. -/
theorem C66_clash_exact (r : Reg) (name : Option (PropertyName × SourceMap)) (nested : BaseName) (m : Member) (o : Option Elem)
    (h : (convertMember r name nested m).result = .ok o) (hs : m.sections = []) :
    (convertMember r name nested m).warnings.filter AboutFlags = clashing m.definition.type.attributes := by
  have key : ∀ t d0 d, (convertedWarnings r t m d0 d).filter AboutFlags = [] := by
    intro t d0 d
    unfold convertedWarnings
    rw [hs, List.filter_append, List.filter_append, filter_quiet (quiet_extractValue _ _ _ _ _ _), filter_quiet (quiet_dataToElement _ _ _)]
    simp [convertSections]
  cases name with
  | none =>
    obtain ⟨t, v, d0, d, ht, hc, ho, hw⟩ := member_value r nested m _ h
    rw [hw, List.filter_append, key, filter_clashing, List.append_nil]
  | some p =>
    obtain ⟨k, _, hh⟩ := member_property r p.1 p.2 nested m _ h
    rcases hh with ⟨_, _, hw⟩ | ⟨_, t, v, d0, d, ht, hc, ho, hw⟩
    · rw [hw, List.filter_append, filter_quiet (quiet_propertyKey _ _ _), filter_clashing, List.append_nil]
    · rw [hw, List.filter_append, List.filter_append, key, filter_quiet (quiet_propertyKey _ _ _), filter_clashing, List.append_nil, List.append_nil]

/-- C66: a named type is not checked: nothing is said about its flags, whatever they are. -/
theorem C66_named_unchecked (r : Reg) (ds : NamedType) (e : Elem) (h : (msonToRefract r ds).result = .ok (some e)) (hs : ds.sections = []) :
    (msonToRefract r ds).warnings.filter AboutFlags = [] := by
  rcases named_ok r ds _ h with ⟨_, _, _, ho⟩ | ⟨_, t, d0, d, e', ht, _, _, hd, ho, hw⟩
  · cases ho
  · rw [hw, List.filter_append, List.filter_append, hs, filter_quiet (quiet_addHints _ _ _ _), filter_quiet (quiet_dataToElement _ _ _)]
    simp [convertSections]

/-- `- a: 1 (number, required, fixed, optional)` -/
example : ∃ e, (convertMember [] none .string (.mk [] ⟨[⟨str "1", false⟩], ⟨.primitive, ⟨⟨some .number, [], false⟩, []⟩, 7⟩⟩ [] [] [] [])).result =
      .ok (some e) ∧ attr e "typeAttributes" = some (list [text (str "required"), text (str "optional"), text (str "fixed")]) ∧
    clashing 7 = [.fixedOptional, .requiredOptional] := ⟨_, rfl, rfl, by decide +kernel⟩

/-! ## C67 -/

theorem namedE_kind (t : BaseName) (ds : NamedType) (l : List (Bytes × SourceMap)) : (namedE t ds l).kind = kindOf t := by
  unfold namedE
  rw [(keeps_setDescription _ _).kind, (keeps_setTypeAttributes _ _).kind, (keeps_attach _ _).kind]
  split
  · unfold setType; split <;> cases t <;> rfl
  · rw [(keeps_setMeta _ _ _).kind]; unfold setType; split <;> cases t <;> rfl

theorem namedE_keeps (t : BaseName) (ds : NamedType) (l : List (Bytes × SourceMap)) :
    Keeps [str "sourceMap", str "typeAttributes"] [str "description", str "id"] (setType ds.type (makeEmpty (kindOf t))) (namedE t ds l) := by
  unfold namedE
  have k0 : Keeps [] [str "id"] (setType ds.type (makeEmpty (kindOf t))) (if ds.name.literal.isEmpty then setType ds.type (makeEmpty (kindOf t))
     else setMeta (str "id") (attach ds.nameMap (strE ds.name.literal)) (setType ds.type (makeEmpty (kindOf t)))) := by
    split
    · exact .refl _ _ _
    · exact keeps_setMeta _ _ _
  have := ((k0.trans (keeps_attach ds.map _)).trans (keeps_setTypeAttributes ds.type.attributes _)).trans (keeps_setDescription l _)
  exact ⟨this.data, this.has, this.name, fun k hk => this.attributes k (by simpa using hk), fun k hk => this.metas k (fun a => hk (by simp at a ⊢; tauto))⟩

theorem setType_name (t : BaseName) (ty : TypeDef) : (setType ty (makeEmpty (kindOf t))).name = nameFor t ty := by
  unfold setType nameFor
  by_cases h : ty.spec.name.literal = []
  · have : ty.spec.name.literal.isEmpty = true := by simp [h]
    rw [if_pos this, if_pos h]; cases t <;> rfl
  · have : ¬ ty.spec.name.literal.isEmpty = true := by simp [h]
    rw [if_neg this, if_neg h]; cases t <;> rfl

theorem namedE_id (t : BaseName) (ds : NamedType) (l : List (Bytes × SourceMap)) :
    Infos.find (namedE t ds l).metas (str "id") = if ds.name.literal = [] then none else some (attach ds.nameMap (text ds.name.literal)) := by
  unfold namedE
  rw [(keeps_setDescription _ _).metas _ (by decide), (keeps_setTypeAttributes _ _).metas _ (by simp), (keeps_attach _ _).metas _ (by simp)]
  by_cases h : ds.name.literal = []
  · have : ds.name.literal.isEmpty = true := by simp [h]
    rw [if_pos this, if_pos h]; unfold setType; split <;> cases t <;> rfl
  · have : ¬ ds.name.literal.isEmpty = true := by simp [h]
    rw [if_neg this, if_neg h, metas_setMeta, Infos.find_set, if_pos rfl]; rfl

/-- C67: nothing is made of a named type exactly if nothing is written of it. -/
theorem C67_nothing (r : Reg) (ds : NamedType) (o : Option Elem) (h : (msonToRefract r ds).result = .ok o) : o = none ↔ Unwritten ds := by
  have key : (typeEmpty ds.type = true ∧ nameEmpty ds.name = true ∧ ds.sections = []) ↔ Unwritten ds := by
    unfold Unwritten typeEmpty nameEmpty
    simp only [Bool.and_eq_true, beq_iff_eq, List.isEmpty_iff, Option.isNone_iff_eq_none, Bool.not_eq_true']
    tauto
  rcases named_ok r ds o h with ⟨h1, h2, h3, ho⟩ | ⟨hn, t, d0, d, e, _, _, _, _, ho, _⟩
  · exact ⟨fun _ => key.1 ⟨h1, h2, h3⟩, fun _ => ho⟩
  · rw [ho]; simp only [reduceCtorEq, false_iff]; exact fun a => hn (key.2 a)

/-- C67: the element of a named type is of the basic type its parent stands for, else an object, is called after its parent, and has the
    name as its id. -/
theorem C67_named (r : Reg) (ds : NamedType) (e : Elem) (h : (msonToRefract r ds).result = .ok (some e)) :
    ∃ t, NamedIs r ds t ∧ Is t e ∧ e.name = nameFor t ds.type ∧ idOf e = (if ds.name.literal = [] then none else some ds.name.literal) := by
  rcases named_ok r ds _ h with ⟨_, _, _, ho⟩ | ⟨_, t, d0, d, e', ht, _, _, hd, ho, _⟩
  · cases ho
  · cases ho
    have hk := data_kind t d _ e hd (namedE_kind t ds _)
    refine ⟨t, ht, is_of_kind e t hk.1, ?_, ?_⟩
    · rw [hk.2.1, (namedE_keeps t ds _).name, setType_name]
    · unfold idOf
      rw [hk.2.2.2, namedE_id]
      by_cases hl : ds.name.literal = []
      · rw [if_pos hl, if_pos hl]
      · rw [if_neg hl, if_neg hl]
        have k := keeps_attach ds.nameMap (text ds.name.literal)
        generalize hx : attach ds.nameMap (text ds.name.literal) = x at k
        cases x with
        | mk n m a hh dd => have := k.data; simp only [Elem.data, text] at this; subst this; rfl

/-- C67: the value of a member is of the type `MemberIs` says, and is called after its type. -/
theorem C67_member (r : Reg) (name : Option (PropertyName × SourceMap)) (nested : BaseName) (m : Member) (e : Elem)
    (h : (convertMember r name nested m).result = .ok (some e)) :
    ∃ t v, MemberIs r nested m t ∧ theValue e = some v ∧ Is t v ∧ v.name = nameFor t m.definition.type := by
  obtain ⟨t, v, v', d0, d, ht, hc, hv, k⟩ := member_any r name nested m e h
  have hk := data_kind t d _ v hc.data (baseE_kind t m).1
  exact ⟨t, v', ht, hv, is_of_kind v' t (by rw [k.kind, hk.1]), by rw [k.name, hk.2.1, (baseE_kind t m).2.2.2.2]; rfl⟩

/-- C67: there is one such type only. -/
theorem C67_unique (r : Reg) (nested : BaseName) (m : Member) (t t' : BaseName) (h : MemberIs r nested m t) (h' : MemberIs r nested m t') : t = t' :=
  memberIs_unique h h'

/-- `- a (A)` where `A` is a list. -/
example : ∃ r : Reg, ∃ ty : TypeDef, StandsFor r ty.spec.name .array ∧ nameFor .array ty = str "A" ∧
    NamedIs r { type := ty } .array := by
  refine ⟨[(str "A", emptyOf .array)], ⟨.value, ⟨⟨none, str "A", false⟩, []⟩, 0⟩, ?_, rfl, .inl ?_⟩ <;>
    exact .inr ⟨rfl, by decide, emptyOf .array, .here _ _ rfl (.inl (by unfold reserved; decide +kernel)), [], rfl⟩

/-! ## C68 -/

/-- The texts of the parts of a member that holds a text. -/
theorem primitive_parts (r : Reg) (t : BaseName) (m : Member) (v : Elem) (d0 d : Parts) (hp : Primitive t) (hc : Converted r t m v d0 d) :
    d.inlines.map (·.text) = inlineText t m.definition .value ∧ d.samples.map (·.text) = textsFor t m .sample .sample ∧
    d.defaults.map (·.text) = textsFor t m .default .default ∧ d.values = [] ∧ d.hints = [] ∧
    d.descriptions = d0.descriptions ++ blocks m.sections ∧
    convertedWarnings r t m d0 d = missing m.definition ++ (dataToElement t d (baseE t m)).warnings := by
  have hl := extractValue_ok r t _ _ _ _ d0 hc.line
  have hs := sections_primitive r t _ hp m.sections d0 d hc.sections
  have line : ∀ u, (lineInfos t m.definition m.definitionMap u).map (·.text) = inlineText t m.definition u ∨ u = .nothing := by
    intro u
    by_cases hn : u = .nothing
    · exact .inr hn
    left
    unfold lineInfos inlineText
    split
    · rename_i hu
      have hne : m.definition.values ≠ [] := by
        intro hv
        unfold useOf at hu
        rw [if_pos (.inl hv)] at hu
        exact hn hu.symm
      simp only [lineInfo, (isPrimitive_iff t).2 hp, if_true, List.map_cons, List.map_nil]
      cases hv : m.definition.values with
      | nil => exact absurd hv hne
      | cons x l => simp
    · rfl
  have l1 := (line .value).resolve_right (by decide)
  have l2 := (line .sample).resolve_right (by decide)
  have l3 := (line .default).resolve_right (by decide)
  rw [hs.1]
  refine ⟨?_, ?_, ?_, ?_, ?_, rfl, ?_⟩
  · simp only; rw [hl.1, l1]
  · simp only [List.map_append, List.map_map]; rw [hl.2.1, l2]; rfl
  · simp only [List.map_append, List.map_map]; rw [hl.2.2.1, l3]; rfl
  · exact hl.2.2.2.1
  · exact (hl.2.2.2.2.2.1 hp).1
  · unfold convertedWarnings
    rw [hs.2.1, (hl.2.2.2.2.2.1 hp).2.2, List.append_nil]

theorem forall2_entries (t : BaseName) (hp : Primitive t) (l : List Info) : List.Forall₂ (Entry t) (l.map (·.text)) (l.map (infoToElement t)) := by
  induction l with
  | nil => exact .nil
  | cons i r ih => exact .cons (infoToElement_entry t hp i) ih

/-- C68: a member of a type that holds a text has as its content what its line is read as, or the fallback of its type if that is not one
    of the type; it has none if the line has no value or this is a sample or the default. -/
theorem C68_content (r : Reg) (name : Option (PropertyName × SourceMap)) (nested : BaseName) (m : Member) (e : Elem) (t : BaseName)
    (h : (convertMember r name nested m).result = .ok (some e)) (ht : MemberIs r nested m t) (hp : Primitive t) :
    ∃ v, theValue e = some v ∧ (inlineText t m.definition .value = [] → v.has = false ∧ v.data = (emptyOf t).data) ∧
      ∀ s, inlineText t m.definition .value = [s] → v.has = true ∧ (∀ d, Reads t s (some d) → v.data = d) ∧ (Reads t s none → v.data = fallback t) := by
  obtain ⟨t', v, v', d0, d, ht', hc, hv, k⟩ := member_any r name nested m e h
  obtain rfl := memberIs_unique ht ht'
  obtain ⟨p1, p2, p3, p4, p5, p6, p7⟩ := primitive_parts r t m v d0 d hp hc
  have hd := (data_primitive t hp d _ v p4 p5 (baseE_attr t m _ (by decide)) (baseE_attr t m _ (by decide)) hc.data).1
  refine ⟨v', hv, ?_, ?_⟩
  · intro hi
    rw [hi, List.map_eq_nil_iff] at p1
    rw [k.has, k.data, hd.has, hd.data]
    unfold savePrimitive
    rw [p1]
    exact ⟨(baseE_kind t m).2.1, (baseE_kind t m).2.2.1⟩
  · intro s hs
    rw [hs] at p1
    cases hi : d.inlines with
    | nil => rw [hi] at p1; cases p1
    | cons i rest =>
      rw [hi] at p1
      simp only [List.map_cons, List.cons.injEq] at p1
      have hsp : savePrimitive t d (baseE t m) = attach i.map ((baseE t m).setData (literalTo t i.text).2) := by unfold savePrimitive; rw [hi]
      have ka := keeps_attach i.map ((baseE t m).setData (literalTo t i.text).2)
      rw [k.has, k.data, hd.has, hd.data, hsp, ka.has, ka.data, has_setData, data_setData]
      have hr := literalTo_reads t hp i.text
      rw [p1.1] at hr ⊢
      refine ⟨rfl, fun x hx => ?_, fun hx => ?_⟩
      · have := reads_unique hr.1 hx
        split at this
        · exact Option.some.inj this
        · cases this
      · have := reads_unique hr.1 hx
        split at this
        · cases this
        · rename_i hb; exact hr.2.1 (by simpa using hb)

/-- C68: its samples are those of its line, if that is a sample, and those of its sections, in that order; a text that is not one of the
    type leaves an entry without content. -/
theorem C68_samples (r : Reg) (name : Option (PropertyName × SourceMap)) (nested : BaseName) (m : Member) (e : Elem) (t : BaseName)
    (h : (convertMember r name nested m).result = .ok (some e)) (ht : MemberIs r nested m t) (hp : Primitive t) :
    ∃ v es, theValue e = some v ∧ List.Forall₂ (Entry t) (textsFor t m .sample .sample) es ∧ attr v "samples" = listed es := by
  obtain ⟨t', v, v', d0, d, ht', hc, hv, k⟩ := member_any r name nested m e h
  obtain rfl := memberIs_unique ht ht'
  obtain ⟨p1, p2, p3, p4, p5, p6, p7⟩ := primitive_parts r t m v d0 d hp hc
  have hd := data_primitive t hp d _ v p4 p5 (baseE_attr t m _ (by decide)) (baseE_attr t m _ (by decide)) hc.data
  refine ⟨v', d.samples.map (infoToElement t), hv, by rw [← p2]; exact forall2_entries t hp _, ?_⟩
  rw [attr, k.attributes _ (by decide)]; exact hd.2.1

/-- C68: its default is the last one that is written, on its line or in its sections. -/
theorem C68_default (r : Reg) (name : Option (PropertyName × SourceMap)) (nested : BaseName) (m : Member) (e : Elem) (t : BaseName)
    (h : (convertMember r name nested m).result = .ok (some e)) (ht : MemberIs r nested m t) (hp : Primitive t) :
    ∃ v, theValue e = some v ∧ (textsFor t m .default .default = [] → attr v "default" = none) ∧
      ∀ s, (textsFor t m .default .default).getLast? = some s → ∃ x, attr v "default" = some x ∧ Entry t s x := by
  obtain ⟨t', v, v', d0, d, ht', hc, hv, k⟩ := member_any r name nested m e h
  obtain rfl := memberIs_unique ht ht'
  obtain ⟨p1, p2, p3, p4, p5, p6, p7⟩ := primitive_parts r t m v d0 d hp hc
  have hd := (data_primitive t hp d _ v p4 p5 (baseE_attr t m _ (by decide)) (baseE_attr t m _ (by decide)) hc.data).2.2.1
  refine ⟨v', hv, ?_, ?_⟩ <;> rw [attr, k.attributes _ (by decide)]
  · intro hn
    rw [hn, List.map_eq_nil_iff] at p3
    rw [p3] at hd; exact hd
  · intro s hs
    rw [← p3, List.getLast?_map] at hs
    cases hl : d.defaults.getLast? with
    | none => rw [hl] at hs; cases hs
    | some i =>
      rw [hl] at hs hd
      cases hs
      exact ⟨_, hd, infoToElement_entry t hp i⟩

/-- C68: each text that is not one of the type is warned about, and these are all the warnings about a member that holds a text, besides
    those about its flags. -/
theorem C68_warnings (r : Reg) (nested : BaseName) (m : Member) (o : Option Elem) (t : BaseName)
    (h : (convertMember r none nested m).result = .ok o) (ht : MemberIs r nested m t) (hp : Primitive t) :
    ∃ ws, Complaints t (inlineText t m.definition .value ++ textsFor t m .sample .sample ++ textsFor t m .default .default) ws ∧
      (convertMember r none nested m).warnings = clashing m.definition.type.attributes ++ (missing m.definition ++ ws) := by
  obtain ⟨t', v, d0, d, ht', hc, ho, hw⟩ := member_value r nested m _ h
  obtain rfl := memberIs_unique ht ht'
  obtain ⟨p1, p2, p3, p4, p5, p6, p7⟩ := primitive_parts r t m v d0 d hp hc
  obtain ⟨ws, hcomp, hws⟩ := (data_primitive t hp d _ v p4 p5 (baseE_attr t m _ (by decide)) (baseE_attr t m _ (by decide)) hc.data).2.2.2
  refine ⟨ws, by rw [← p1, ← p2, ← p3]; exact hcomp, ?_⟩
  rw [hw, p7, hws]

/-- C68: a text is read in one way only. -/
theorem C68_unique (t : BaseName) (s : Bytes) (a b : Option Data) (ha : Reads t s a) (hb : Reads t s b) : a = b := reads_unique ha hb

/-- C68: every text is read in some way. -/
theorem C68_total (t : BaseName) (hp : Primitive t) (s : Bytes) : ∃ a, Reads t s a := ⟨_, (literalTo_reads t hp s).1⟩

/-- C68: a named type that holds a text has no content of its own; its samples and its default are those of its sections. -/
theorem C68_named (r : Reg) (ds : NamedType) (e : Elem) (t : BaseName) (h : (msonToRefract r ds).result = .ok (some e)) (ht : NamedIs r ds t)
    (hp : Primitive t) : e.has = false ∧ (∃ es, List.Forall₂ (Entry t) ((filled .sample ds.sections).map (·.value)) es ∧ attr e "samples" = listed es) ∧
      (filled .default ds.sections = [] → attr e "default" = none) ∧
      (∀ s, (filled .default ds.sections).getLast? = some s → ∃ x, attr e "default" = some x ∧ Entry t s.value x) ∧
      Complaints t ((filled .sample ds.sections).map (·.value) ++ (filled .default ds.sections).map (·.value)) (msonToRefract r ds).warnings := by
  rcases named_ok r ds _ h with ⟨_, _, _, ho⟩ | ⟨_, t', d0, d, e', ht', h0, h1, hd, ho, hw⟩
  · cases ho
  · cases ho
    have htt : t = t' := by
      rcases ht with ht | ⟨ht, rfl⟩ <;> rcases ht' with ht' | ⟨ht', rfl⟩
      · exact standsFor_unique ht ht'
      · exact absurd ht (ht' _)
      · exact absurd ht' (ht _)
      · rfl
    subst htt
    have h0' : d0 = {} ∧ (addHints r t ds.type {}).warnings = [] := by
      unfold addHints at h0 ⊢
      rw [if_pos ((isPrimitive_iff t).2 hp)] at h0 ⊢
      cases h0; exact ⟨rfl, rfl⟩
    obtain ⟨rfl, hw0⟩ := h0'
    obtain ⟨rfl, hsw, _⟩ := sections_primitive r t _ hp ds.sections {} d h1
    simp only [List.nil_append] at hd hw
    have na : ∀ k, k ≠ str "sourceMap" → k ≠ str "typeAttributes" → Infos.find (namedE t ds (blocks ds.sections)).attributes k = none := by
      intro k hk hk'
      rw [(namedE_keeps t ds _).attributes _ (by simp [hk, hk'])]
      unfold setType; split <;> cases t <;> rfl
    have key := data_primitive t hp _ _ e rfl rfl (na _ (by decide) (by decide)) (na _ (by decide) (by decide)) hd
    simp only at key
    obtain ⟨k1, k2, k3, ws, k4, k5⟩ := key
    refine ⟨?_, ⟨_, ?_, k2⟩, ?_, ?_, ?_⟩
    · rw [k1.has]; unfold savePrimitive; simp only
      rw [(namedE_keeps t ds _).has]; unfold setType; split <;> cases t <;> rfl
    · have := forall2_entries t hp ((filled .sample ds.sections).map fun s => { text := s.value, map := s.valueMap })
      simpa [List.map_map] using this
    · intro hn; rw [k3, hn]; rfl
    · intro s hs
      refine ⟨_, by rw [k3, List.getLast?_map, hs]; rfl, ?_⟩
      exact infoToElement_entry t hp { text := s.value, map := s.valueMap }
    · rw [hw, hw0, hsw, k5]
      simp only [List.map_nil, List.nil_append, List.map_map] at k4
      exact k4

/-- `- x1 (number, sample)` with the sections `Sample: 2` and `Default: y`. -/
example : ∃ e, (convertMember [] none .string (.mk [] ⟨[⟨str "x1", false⟩], ⟨.primitive, ⟨⟨some .number, [], false⟩, []⟩, 8⟩⟩
      [.mk .sample [] (str "2") [] [] [], .mk .default [] (str "y") [] [] []] [] [] [])).result = .ok (some e) ∧
    attr e "samples" = some (list [emptyOf .number, .mk (str "number") [] [] true (.number (str "2"))]) ∧
    attr e "default" = some (emptyOf .number) ∧ e.has = false := by
  refine ⟨_, rfl, ?_, ?_, ?_⟩ <;> rfl

end Verif.Props
