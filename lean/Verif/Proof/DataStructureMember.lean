import Verif.Proof.DataStructureParts
/-!
# From MSON to API Elements (proofs about members and named types)
-/
namespace Verif.DataStructure
open Verif Verif.Refract Verif.Registry Verif.Spec Verif.Spec.DataStructure
open Verif.NamedTypes (BaseName TypeName)
open Verif.Mson (Value TypeDef TypeSpec ValueDef PropertyName)

/-! ## From parts to an element -/

theorem saveSamples_find (t : BaseName) (ht : t ≠ .enum) (l : List Info) (e : Elem) (h : attr e "samples" = none) :
    attr (saveSamples t l e) "samples" = listed (l.map (infoToElement t)) := by
  unfold saveSamples listed
  rw [if_neg ht]
  cases l with
  | nil => simpa using h
  | cons i r => simp only [List.isEmpty_cons, Bool.false_eq_true, if_false, attr, find_setAttr, if_pos]; rfl

theorem saveDefault_find (t : BaseName) (ht : t ≠ .enum) (l : List Info) (e e' : Elem) (h : attr e "default" = none)
    (hd : (saveDefault t l e).result = .ok e') : attr e' "default" = l.getLast?.map (infoToElement t) := by
  unfold saveDefault at hd
  cases hl : l.getLast? with
  | none => rw [hl] at hd; cases hd; simpa using h
  | some last =>
    rw [hl] at hd
    simp only [ht, if_false] at hd
    cases hd
    simp [attr, find_setAttr]

theorem saveDefault_warnings (t : BaseName) (ht : t ≠ .enum) (l : List Info) (e : Elem) : (saveDefault t l e).warnings = [] := by
  unfold saveDefault
  split
  · rfl
  · rw [if_neg ht]; rfl

theorem data_primitive (t : BaseName) (h : Primitive t) (d : Parts) (e e' : Elem) (hv : d.values = []) (hh : d.hints = [])
    (hs : attr e "samples" = none) (hd : attr e "default" = none) (he : (dataToElement t d e).result = .ok e') :
    Keeps [str "sourceMap", str "samples", str "default"] [] (savePrimitive t d e) e' ∧
    attr e' "samples" = listed (d.samples.map (infoToElement t)) ∧ attr e' "default" = d.defaults.getLast?.map (infoToElement t) ∧
    ∃ ws, Complaints t (d.inlines.map (·.text) ++ d.samples.map (·.text) ++ d.defaults.map (·.text)) ws ∧ (dataToElement t d e).warnings = ws := by
  have ht : t ≠ .enum := by rintro rfl; rcases h with h | h | h <;> cases h
  have hp := (isPrimitive_iff t).2 h
  have hD : dataToElement t d e = ⟨(d.inlines ++ d.samples ++ d.defaults).flatMap (validity t) ++ (saveDefault t d.defaults (saveSamples t d.samples (savePrimitive t d e))).warnings,
      (saveDefault t d.defaults (saveSamples t d.samples (savePrimitive t d e))).result⟩ := by
    unfold dataToElement
    rw [W.warn_bind, if_neg ht, W.pure_bind, hv, hh, if_pos hp]
    simp
  rw [hD] at he ⊢
  simp only at he ⊢
  have hs1 : attr (savePrimitive t d e) "samples" = none := by
    unfold savePrimitive attr at *
    split
    · exact hs
    · rw [(keeps_attach _ _).attributes _ (by decide), attributes_setData]; exact hs
  have hd1 : attr (savePrimitive t d e) "default" = none := by
    unfold savePrimitive attr at *
    split
    · exact hd
    · rw [(keeps_attach _ _).attributes _ (by decide), attributes_setData]; exact hd
  have k1 := keeps_saveSamples t d.samples (savePrimitive t d e)
  have k2 := keeps_saveDefault t d.defaults _ e' he
  have hcomp := validity_complaints t h (d.inlines ++ d.samples ++ d.defaults)
  simp only [List.map_append] at hcomp
  refine ⟨?_, ?_, ?_, _, hcomp, ?_⟩
  · have := k1.trans k2
    exact ⟨this.data, this.has, this.name, fun k hk => this.attributes k (fun a => hk (by simp at a ⊢; tauto)), fun k hk => this.metas k (by simpa using hk)⟩
  · rw [attr, k2.attributes _ (by decide)]; exact saveSamples_find t ht _ _ hs1
  · refine saveDefault_find t ht _ _ _ ?_ he
    rw [attr, k1.attributes _ (by decide)]; exact hd1
  · rw [saveDefault_warnings t ht]; simp

theorem setData_kind (e : Elem) (d : Data) : (e.setData d).kind = d.kind := by cases e; rfl
theorem Keeps.kind {ks ms e e'} (h : Keeps ks ms e e') : e'.kind = e.kind := by unfold Elem.kind; rw [h.data]

theorem saveEnum_ok (d : Parts) (e e' : Elem) (h : (saveEnum d e).result = .ok e') :
    Keeps [str "enumerations"] [] (match onlyValue d.inlines with
      | some c => e.setData (.enum (some c))
      | none => match onlyValue d.values with
        | some c => e.setData (.enum (some c))
        | none => e) e' := by
  unfold saveEnum at h
  simp only [W.bind_ok, cloneAll_id] at h
  obtain ⟨_, _, _, _, _, _, _, _, _, _, l, _, h⟩ := h
  split at h
  · cases h; exact .refl _ _ _
  · simp only [W.bind_ok, W.pure_result, Except.ok.injEq] at h
    obtain ⟨l', _, rfl⟩ := h
    exact keeps_setAttr _ _ _

theorem data_kind (t : BaseName) (d : Parts) (e e' : Elem) (h : (dataToElement t d e).result = .ok e') (hk : e.kind = kindOf t) :
    e'.kind = kindOf t ∧ e'.name = e.name ∧ (∀ k, k ∉ [str "sourceMap", str "samples", str "default", str "enumerations"] → Infos.find e'.attributes k = Infos.find e.attributes k) ∧
      e'.metas = e.metas := by
  unfold dataToElement at h
  rw [W.warn_bind] at h
  simp only [W.bind_ok] at h
  obtain ⟨e1, h1, h2⟩ := h
  have k2 := (keeps_saveSamples t d.samples e1).trans (keeps_saveDefault t d.defaults _ e' h2)
  have hm : e'.metas = e1.metas := by
    have a : (saveSamples t d.samples e1).metas = e1.metas := by
      unfold saveSamples
      split <;> split <;> first | rfl | rw [metas_setAttr]
    rw [← a]
    unfold saveDefault at h2
    split at h2
    · cases h2; rfl
    · split at h2
      · rw [W.warn_bind] at h2; cases h2; rw [metas_setAttr]
      · cases h2; rw [metas_setAttr]
  have key : e1.kind = kindOf t ∧ e1.name = e.name ∧
      (∀ k, k ∉ [str "sourceMap", str "samples", str "default", str "enumerations"] → Infos.find e1.attributes k = Infos.find e.attributes k) ∧ e1.metas = e.metas := by
    split at h1
    · rename_i ht
      subst ht
      have k1 := saveEnum_ok d e e1 h1
      have hm1 : e1.metas = e.metas := by
        unfold saveEnum at h1
        simp only [W.bind_ok, cloneAll_id] at h1
        obtain ⟨_, _, _, _, _, _, _, _, _, _, l, _, h1⟩ := h1
        split at h1
        · cases h1; split; rw [metas_setData]; split; rw [metas_setData]; rfl
        · simp only [W.bind_ok, W.pure_result, Except.ok.injEq] at h1
          obtain ⟨l', _, rfl⟩ := h1
          rw [metas_setAttr]; split; rw [metas_setData]; split; rw [metas_setData]; rfl
      generalize hy : (match onlyValue d.inlines with
      | some c => e.setData (.enum (some c))
      | none => match onlyValue d.values with
        | some c => e.setData (.enum (some c))
        | none => e) = y at k1
      have hy' : y.kind = kindOf .enum ∧ y.name = e.name ∧ y.attributes = e.attributes := by
        subst hy
        split
        · exact ⟨setData_kind _ _, name_setData _ _, attributes_setData _ _⟩
        · split
          · exact ⟨setData_kind _ _, name_setData _ _, attributes_setData _ _⟩
          · exact ⟨hk, rfl, rfl⟩
      refine ⟨by rw [k1.kind, hy'.1], by rw [k1.name, hy'.2.1], fun k hkk => ?_, hm1⟩
      rw [k1.attributes k (fun a => hkk (by simp at a ⊢; tauto)), hy'.2.2]
    · rename_i ht
      cases h1
      split
      · rename_i hp
        unfold savePrimitive
        split
        · exact ⟨hk, rfl, fun _ _ => rfl, rfl⟩
        · rename_i i r _
          have ka := keeps_attach i.map (e.setData (literalTo t i.text).2)
          refine ⟨?_, ?_, fun k hkk => ?_, ?_⟩
          · rw [ka.kind, setData_kind]; exact (literalTo_reads t ((isPrimitive_iff t).1 hp) i.text).2.2
          · rw [ka.name, name_setData]
          · rw [ka.attributes k (fun a => hkk (by simp at a ⊢; tauto)), attributes_setData]
          · unfold attach; split
            · rw [metas_setData]
            · rw [metas_setAttr, metas_setData]
      · rename_i hp
        unfold saveContainer
        simp only
        split
        · exact ⟨hk, rfl, fun _ _ => rfl, rfl⟩
        · refine ⟨?_, name_setData _ _, fun k _ => by rw [attributes_setData], metas_setData _ _⟩
          rw [setData_kind]
          unfold container
          cases t <;> first | rfl | exact absurd rfl ht | exact absurd rfl hp
  refine ⟨by rw [k2.kind, key.1], by rw [k2.name, key.2.1], fun k hkk => ?_, by rw [hm, key.2.2.2]⟩
  rw [k2.attributes k (fun a => hkk (by simp at a ⊢; tauto)), key.2.2.1 k hkk]

/-! ## Members -/

/-- The element of a type that is filled with the parts. -/
def baseE (t : BaseName) (m : Member) : Elem := attach m.map (setType m.definition.type (makeEmpty (kindOf t)))

theorem baseE_attr (t : BaseName) (m : Member) (k : Bytes) (h : k ≠ str "sourceMap") : Infos.find (baseE t m).attributes k = none := by
  unfold baseE
  rw [(keeps_attach _ _).attributes _ (by simpa using h)]
  unfold setType
  split <;> cases t <;> rfl

theorem baseE_kind (t : BaseName) (m : Member) : (baseE t m).kind = kindOf t ∧ (baseE t m).has = false ∧ (baseE t m).data = (emptyOf t).data ∧
    (baseE t m).metas = [] ∧ (baseE t m).name = (if m.definition.type.spec.name.literal = [] then word t else m.definition.type.spec.name.literal) := by
  unfold baseE
  have k := keeps_attach m.map (setType m.definition.type (makeEmpty (kindOf t)))
  have hm : (attach m.map (setType m.definition.type (makeEmpty (kindOf t)))).metas = (setType m.definition.type (makeEmpty (kindOf t))).metas := by
    unfold attach; split
    · rfl
    · rw [metas_setAttr]
  rw [k.kind, k.has, k.data, k.name, hm]
  unfold setType
  by_cases h : m.definition.type.spec.name.literal = []
  · have : m.definition.type.spec.name.literal.isEmpty = true := by simp [h]
    rw [if_pos this, if_pos h]
    cases t <;> exact ⟨rfl, rfl, rfl, rfl, rfl⟩
  · have : ¬ m.definition.type.spec.name.literal.isEmpty = true := by simp [h]
    rw [if_neg this, if_neg h]
    cases t <;> exact ⟨rfl, rfl, rfl, rfl, rfl⟩

/-- The conversion of the value of a member. -/
structure Converted (r : Reg) (t : BaseName) (m : Member) (v : Elem) (d0 d : Parts) : Prop where
  line : (extractValue r t m.description m.definition m.definitionMap m.descriptionMap).result = .ok d0
  sections : (convertSections r t (itemType m.definition.type.spec.nested) m.sections d0).result = .ok d
  data : (dataToElement t d (baseE t m)).result = .ok v

/-- The warnings of that. -/
def convertedWarnings (r : Reg) (t : BaseName) (m : Member) (d0 d : Parts) : List Warning :=
  (extractValue r t m.description m.definition m.definitionMap m.descriptionMap).warnings ++
    (convertSections r t (itemType m.definition.type.spec.nested) m.sections d0).warnings ++ (dataToElement t d (baseE t m)).warnings

theorem value_ok (r : Reg) (t : BaseName) (m : Member) (x : Elem × List (Bytes × SourceMap))
    (h : (valueWith r t m.description m.definition m.map m.definitionMap m.descriptionMap (fun t nested d => convertSections r t nested m.sections d)).result = .ok x) :
    ∃ d0 d, Converted r t m x.1 d0 d ∧ x.2 = d.descriptions ∧
      (valueWith r t m.description m.definition m.map m.definitionMap m.descriptionMap (fun t nested d => convertSections r t nested m.sections d)).warnings =
        convertedWarnings r t m d0 d := by
  unfold valueWith at h ⊢
  simp only [W.bind_ok, W.pure_result, Except.ok.injEq] at h
  obtain ⟨d0, h0, d, h1, e, h2, rfl⟩ := h
  refine ⟨d0, d, ⟨h0, by rw [← nestedType_eq]; exact h1, h2⟩, rfl, ?_⟩
  rw [W.bind_warnings _ _ _ h0, W.bind_warnings _ _ _ h1, W.bind_warnings _ _ _ h2]
  simp [convertedWarnings, nestedType_eq, baseE]

theorem theValue_value (e : Elem) (t : BaseName) (h : e.kind = kindOf t) : theValue e = some e := by
  cases e with
  | mk n m a hh d =>
    cases d <;> first | rfl | (cases t <;> cases h)

/-- A member without a name. -/
theorem member_value (r : Reg) (nested : BaseName) (m : Member) (o : Option Elem) (h : (convertMember r none nested m).result = .ok o) :
    ∃ t v d0 d, MemberIs r nested m t ∧ Converted r t m v d0 d ∧
      o = some (setDescription d.descriptions (setTypeAttributes m.definition.type.attributes v)) ∧
      (convertMember r none nested m).warnings = clashing m.definition.type.attributes ++ convertedWarnings r t m d0 d := by
  cases m with
  | mk de def' ss mp dm cm =>
    simp only [convertMember, memberWith, W.bind_ok, W.warn_result, W.pure_result, Except.ok.injEq] at h ⊢
    obtain ⟨res, hres, _, _, x, hx, rfl⟩ := h
    have ht := memberType_is r nested (.mk de def' ss mp dm cm) res hres
    obtain ⟨d0, d, hc, hdesc, hw⟩ := value_ok r _ (.mk de def' ss mp dm cm) x hx
    refine ⟨_, x.1, d0, d, ht, hc, by rw [hdesc]; rfl, ?_⟩
    rw [W.bind_warnings _ _ _ hres, resolveType_warnings, W.warn_bind, W.bind_warnings _ _ _ hx]
    rw [clashes_eq]
    simp only [List.nil_append, W.pure_warnings, List.append_nil]
    congr 1

/-- A property. -/
theorem member_property (r : Reg) (n : PropertyName) (nm : SourceMap) (nested : BaseName) (m : Member) (o : Option Elem)
    (h : (convertMember r (some (n, nm)) nested m).result = .ok o) :
    ∃ key, (propertyKey r n nm).result = .ok key ∧
      ((validKey key = false ∧ o = none ∧
        (convertMember r (some (n, nm)) nested m).warnings = clashing m.definition.type.attributes ++ (propertyKey r n nm).warnings) ∨
       (validKey key = true ∧ ∃ t v d0 d, MemberIs r nested m t ∧ Converted r t m v d0 d ∧
        o = some (setDescription (propertyDescriptions m.description m.descriptionMap m.sections)
          (setTypeAttributes m.definition.type.attributes (memberE n key v))) ∧
        (convertMember r (some (n, nm)) nested m).warnings =
          clashing m.definition.type.attributes ++ ((propertyKey r n nm).warnings ++ convertedWarnings r t m d0 d))) := by
  cases m with
  | mk de def' ss mp dm cm =>
    simp only [convertMember, memberWith, W.bind_ok, W.warn_result] at h ⊢
    obtain ⟨res, hres, _, _, key, hkey, h⟩ := h
    refine ⟨key, hkey, ?_⟩
    rw [W.bind_warnings _ _ _ hres, resolveType_warnings, W.warn_bind]
    simp only
    rw [W.bind_warnings _ _ _ hkey]
    cases hv : validKey key with
    | false =>
      rw [hv] at h
      simp only [Bool.false_eq_true, if_false, W.pure_result, Except.ok.injEq] at h ⊢
      exact .inl ⟨trivial, h.symm, by rw [clashes_eq]; simp [Member.definition]⟩
    | true =>
      rw [hv] at h
      simp only [if_true, W.bind_ok, W.pure_result, Except.ok.injEq] at h ⊢
      obtain ⟨x, hx, rfl⟩ := h
      have ht := memberType_is r nested (.mk de def' ss mp dm cm) res hres
      obtain ⟨d0, d, hc, hdesc, hw⟩ := value_ok r _ (.mk de def' ss mp dm cm) x hx
      refine .inr ⟨trivial, _, x.1, d0, d, ht, hc, rfl, ?_⟩
      rw [W.bind_warnings _ _ _ hx, clashes_eq]
      simp only [List.nil_append, W.pure_warnings, List.append_nil]
      congr 2

theorem memberE_value (n : PropertyName) (key v : Elem) : theValue (memberE n key v) = some v := by
  unfold memberE; split <;> rfl

/-- The value of a member or of a property. -/
theorem member_any (r : Reg) (name : Option (PropertyName × SourceMap)) (nested : BaseName) (m : Member) (e : Elem)
    (h : (convertMember r name nested m).result = .ok (some e)) :
    ∃ t v v' d0 d, MemberIs r nested m t ∧ Converted r t m v d0 d ∧ theValue e = some v' ∧ Keeps [str "typeAttributes"] [str "description"] v v' := by
  cases name with
  | none =>
    obtain ⟨t, v, d0, d, ht, hc, ho, _⟩ := member_value r nested m _ h
    cases ho
    have k := (keeps_setTypeAttributes m.definition.type.attributes v).trans (keeps_setDescription d.descriptions (setTypeAttributes m.definition.type.attributes v))
    have hk := (data_kind t d _ v hc.data (baseE_kind t m).1).1
    exact ⟨t, v, _, d0, d, ht, hc, theValue_value _ t (by rw [k.kind, hk]), k⟩
  | some p =>
    obtain ⟨key, _, hh⟩ := member_property r p.1 p.2 nested m _ h
    rcases hh with ⟨_, ho, _⟩ | ⟨_, t, v, d0, d, ht, hc, ho, _⟩
    · cases ho
    · cases ho
      refine ⟨t, v, v, d0, d, ht, hc, ?_, .refl _ _ _⟩
      have k := (keeps_setTypeAttributes m.definition.type.attributes (memberE p.1 key v)).trans
        (keeps_setDescription (propertyDescriptions m.description m.descriptionMap m.sections) _)
      have : ∀ a b, theValue a = some v → b.data = a.data → (∃ x y, a.data = .member x y) → theValue b = some v := by
        intro a b ha hb ⟨x, y, hxy⟩
        unfold theValue at ha ⊢
        rw [hxy] at ha
        rw [hb, hxy]
        exact ha
      exact this _ _ (memberE_value p.1 key v) k.data (by unfold memberE; split <;> exact ⟨_, _, rfl⟩)

/-! ## Named types -/

/-- The element of a named type that is filled with the parts. -/
def namedE (t : BaseName) (ds : NamedType) (d : List (Bytes × SourceMap)) : Elem :=
  setDescription d (setTypeAttributes ds.type.attributes (attach ds.map
    (if ds.name.literal.isEmpty then setType ds.type (makeEmpty (kindOf t))
     else setMeta (str "id") (attach ds.nameMap (strE ds.name.literal)) (setType ds.type (makeEmpty (kindOf t))))))

theorem named_ok (r : Reg) (ds : NamedType) (o : Option Elem) (h : (msonToRefract r ds).result = .ok o) :
    (typeEmpty ds.type = true ∧ nameEmpty ds.name = true ∧ ds.sections = [] ∧ o = none) ∨
    (¬ (typeEmpty ds.type = true ∧ nameEmpty ds.name = true ∧ ds.sections = []) ∧ ∃ t d0 d e, NamedIs r ds t ∧
      (addHints r t ds.type {}).result = .ok d0 ∧ (convertSections r t (itemType ds.type.spec.nested) ds.sections d0).result = .ok d ∧
      (dataToElement t d (namedE t ds d.descriptions)).result = .ok e ∧ o = some e ∧
      (msonToRefract r ds).warnings = (addHints r t ds.type {}).warnings ++
        ((convertSections r t (itemType ds.type.spec.nested) ds.sections d0).warnings ++ (dataToElement t d (namedE t ds d.descriptions)).warnings)) := by
  unfold msonToRefract at h ⊢
  by_cases hc : (typeEmpty ds.type && nameEmpty ds.name && ds.sections.isEmpty) = true
  · rw [if_pos hc] at h
    cases h
    simp only [Bool.and_eq_true, List.isEmpty_iff] at hc
    exact .inl ⟨hc.1.1, hc.1.2, hc.2, rfl⟩
  · rw [if_neg hc] at h ⊢
    right
    refine ⟨fun a => hc (by simp [a.1, a.2.1, a.2.2]), ?_⟩
    simp only [W.bind_ok, W.pure_result, Except.ok.injEq] at h
    obtain ⟨res, hres, e, he, rfl⟩ := h
    rw [W.bind_warnings _ _ _ hres, W.bind_warnings _ _ _ he, resolveType_warnings]
    unfold fromNamedType at he ⊢
    simp only [W.bind_ok] at he
    obtain ⟨d0, h0, d, h1, h2⟩ := he
    refine ⟨res.getD .object, d0, d, e, ?_, h0, by rw [← nestedType_eq]; exact h1, h2, rfl, ?_⟩
    · cases res with
      | some t => exact .inl ((resolveType_ok r _ _ hres t).1 rfl)
      | none => exact .inr ⟨(resolveType_none r _ _ hres).1 rfl, rfl⟩
    · simp only
      rw [W.bind_warnings _ _ _ h0, W.bind_warnings _ _ _ h1, ← nestedType_eq]
      simp [namedE]

/-! ## Warnings that are not about flags -/

/-- None of the warnings is about flags. -/
def Quiet {α : Type} (x : W α) : Prop := ∀ w ∈ x.warnings, AboutFlags w = false

theorem Quiet.bind {α β : Type} {x : W α} {f : α → W β} (hx : Quiet x) (hf : ∀ a, Quiet (f a)) : Quiet (x.bind f) := by
  unfold Quiet W.bind at *
  split
  · intro w hw
    rcases List.mem_append.1 hw with hw | hw
    · exact hx w hw
    · exact hf _ w hw
  · exact hx
theorem quiet_pure {α : Type} (a : α) : Quiet (W.pure a) := by simp [Quiet]
theorem quiet_stop {α : Type} (s : Stop) : Quiet (W.stop s : W α) := by simp [Quiet, W.stop]
theorem quiet_none {α : Type} (x : W α) (h : x.warnings = []) : Quiet x := by simp [Quiet, h]
theorem quiet_each {α β : Type} (f : α → W β) (h : ∀ a, Quiet (f a)) : ∀ l, Quiet (W.each f l)
  | [] => quiet_pure _
  | a :: r => (h a).bind fun _ => (quiet_each f h r).bind fun _ => quiet_pure _

theorem quiet_hintOf (r : Reg) (n : TypeName) : Quiet (hintOf r n) := by
  unfold hintOf
  split
  · refine (quiet_none _ (typeOfName_warnings r _)).bind fun t => ?_
    split
    · intro w hw
      rw [W.warn_bind] at hw
      simp only [W.pure_warnings, List.append_nil, List.mem_singleton] at hw
      subst hw; rfl
    · exact quiet_pure _
  · exact quiet_pure _

theorem quiet_addHints (r : Reg) (t : BaseName) (ty : TypeDef) (d : Parts) : Quiet (addHints r t ty d) := by
  unfold addHints
  split
  · exact quiet_pure _
  · exact (quiet_each _ (quiet_hintOf r) _).bind fun _ => quiet_pure _

theorem quiet_extractValue (r : Reg) (t : BaseName) (de : Bytes) (v : ValueDef) (dm cm : SourceMap) : Quiet (extractValue r t de v dm cm) := by
  unfold extractValue
  split
  · exact quiet_pure _
  · refine Quiet.bind ?_ fun d => ?_
    · unfold addValues
      split
      · intro w hw
        rw [W.warn_bind] at hw
        simp only [W.pure_warnings, List.append_nil, List.mem_append] at hw
        rcases hw with hw | hw <;> split at hw <;> simp at hw <;> subst hw <;> rfl
      · refine (quiet_none _ (fetchValues_warnings t v dm)).bind fun i => ?_
        split
        · exact quiet_pure _
        · split <;> exact quiet_pure _
    · simp only
      split
      · exact quiet_addHints _ _ _ _
      · exact quiet_pure _

theorem quiet_addEnumerations (b : Bool) : ∀ (l es : List Elem), Quiet (addEnumerations b l es)
  | [], es => by rw [addEnumerations]; exact quiet_pure _
  | x :: r, es => by
    rw [addEnumerations]
    refine (quiet_none _ (W.defined_warnings _)).bind fun f => ?_
    split
    · intro w hw
      rw [W.warn_bind] at hw
      rcases List.mem_append.1 hw with hw | hw
      · split at hw <;> simp at hw; subst hw; rfl
      · exact quiet_addEnumerations b r es w hw
    · exact quiet_addEnumerations b r _

theorem quiet_withoutValues (vs : List Elem) : ∀ l : List Elem, Quiet (withoutValues vs l)
  | [] => by rw [withoutValues]; exact quiet_pure _
  | x :: r => by
    rw [withoutValues]
    exact (quiet_none _ (W.defined_warnings _)).bind fun f => (quiet_withoutValues vs r).bind fun _ => quiet_pure _

theorem quiet_dataToElement (t : BaseName) (d : Parts) (e : Elem) : Quiet (dataToElement t d e) := by
  unfold dataToElement
  refine Quiet.bind ?_ fun _ => Quiet.bind ?_ fun e1 => ?_
  · intro w hw
    simp only [W.warn_warnings, List.mem_flatMap] at hw
    obtain ⟨i, _, hw⟩ := hw
    unfold validity at hw
    split at hw
    · split at hw <;> simp at hw; subst hw; rfl
    · split at hw <;> simp at hw; subst hw; rfl
    · simp at hw
  · split
    · unfold saveEnum
      simp only
      refine (quiet_withoutValues _ _).bind fun _ => (quiet_addEnumerations _ _ _).bind fun _ => (quiet_addEnumerations _ _ _).bind fun _ =>
        (quiet_addEnumerations _ _ _).bind fun _ => (quiet_addEnumerations _ _ _).bind fun _ => (quiet_addEnumerations _ _ _).bind fun _ => ?_
      split
      · exact quiet_pure _
      · refine (quiet_each _ (fun x => ?_) _).bind fun _ => quiet_pure _
        split
        · exact quiet_none _ (W.defined_warnings _)
        · exact quiet_pure _
    · exact quiet_pure _
  · unfold saveDefault
    split
    · exact quiet_pure _
    · split
      · refine Quiet.bind ?_ fun _ => quiet_pure _
        intro w hw
        rw [W.warn_warnings] at hw
        split at hw
        · simp only [List.mem_singleton] at hw; subst hw; rfl
        · simp at hw
      · exact quiet_pure _

theorem quiet_propertyKey (r : Reg) (n : PropertyName) (nm : SourceMap) : Quiet (propertyKey r n nm) := by
  unfold propertyKey
  refine Quiet.bind ?_ fun _ => quiet_pure _
  split
  · exact quiet_pure _
  · refine Quiet.bind ?_ fun _ => Quiet.bind ?_ fun _ => quiet_pure _
    · intro w hw
      rw [W.warn_warnings] at hw
      split at hw
      · simp only [List.mem_singleton] at hw; subst hw; rfl
      · simp at hw
    · split
      · exact quiet_pure _
      · refine Quiet.bind ?_ fun b => ?_
        · unfold variableIsString
          split
          · exact quiet_pure _
          · exact (quiet_none _ (W.ends_warnings _)).bind fun _ => quiet_pure _
        · split
          · exact quiet_pure _
          · exact quiet_stop _

theorem filter_quiet {α : Type} {x : W α} (h : Quiet x) : x.warnings.filter AboutFlags = [] := by
  rw [List.filter_eq_nil_iff]
  intro w hw
  rw [h w hw]; simp

theorem filter_clashing (bits : Nat) : (clashing bits).filter AboutFlags = clashing bits := by
  rw [List.filter_eq_self]
  intro w hw
  unfold clashing at hw
  rw [List.mem_map] at hw
  obtain ⟨p, hp, rfl⟩ := hw
  have := (List.mem_filter.1 hp).1
  unfold AboutFlags
  rw [List.any_eq_true]
  exact ⟨p, this, by simp⟩

end Verif.DataStructure
