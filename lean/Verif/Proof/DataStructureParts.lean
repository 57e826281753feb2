import Verif.Proof.DataStructureTypes
import Mathlib.Tactic.Tauto
/-!
# From MSON to API Elements (proofs about the parts of a type)
-/
namespace Verif.DataStructure
open Verif Verif.Refract Verif.Registry Verif.Spec Verif.Spec.DataStructure
open Verif.NamedTypes (BaseName TypeName)
open Verif.Mson (Value TypeDef TypeSpec ValueDef PropertyName)

/-! ## Hints -/

theorem nestedType_eq (l : List TypeName) : nestedType l = itemType l := by
  unfold nestedType itemType
  split
  · rename_i n
    cases hb : n.base with
    | none => simp [hb]
    | some b => cases b <;> simp [hb]
  · rename_i hn
    have : ∀ b : Option BaseName, l.map (·.base) ≠ [b] := by
      intro b h
      cases l with
      | nil => simp at h
      | cons a r => cases r with
        | nil => exact hn a rfl
        | cons _ _ => simp at h
    rw [if_neg (this _), if_neg (this _)]

theorem itemType_primitive (l : List TypeName) : Primitive (itemType l) := by
  unfold itemType Primitive
  split
  · exact .inl rfl
  · split
    · exact .inr (.inr rfl)
    · exact .inr (.inl rfl)

theorem makeElement_word (t : BaseName) (d : Data) (h : d.kind = kindOf t) : makeElement d = .mk (word t) [] [] true d := by
  rw [makeElement, h, kind_name]

/-- A text of a type that holds a text. -/
theorem create_value (t : BaseName) (h : Primitive t) (s : Bytes) (hs : s ≠ []) : Entry t s (create (some t) s .value) := by
  have hp := (isPrimitive_iff t).2 h
  have he : s.isEmpty = false := by simpa using hs
  have hr := literalTo_reads t h s
  simp only [create, Option.getD_some, hp, if_true, he, Bool.false_eq_true, if_false]
  cases hb : (literalTo t s).1 with
  | true =>
    rw [hb] at hr
    simp only [if_true] at hr ⊢
    rw [makeElement_word t _ hr.2.2]; exact .good hr.1
  | false =>
    rw [hb] at hr
    simp only [Bool.false_eq_true, if_false] at hr ⊢
    rw [makeEmpty_eq]; exact .bad hr.1

theorem setAttr_empty (t : BaseName) (k : Bytes) (v : Elem) : setAttr k v (emptyOf t) = (emptyOf t).setAttributes [(k, v)] := by
  cases t <;> rfl

theorem create_item (t : BaseName) (h : Primitive t) (x : Value) :
    Item t x (create (some t) x.literal (if x.isVariable then .sample else .value)) := by
  have hp := (isPrimitive_iff t).2 h
  by_cases hx : x.literal = []
  · have : create (some t) x.literal (if x.isVariable then .sample else .value) = emptyOf t := by
      simp [create, hp, hx, makeEmpty_eq]
    rw [this]; exact .none hx
  · cases hv : x.isVariable with
    | false => simp only [Bool.false_eq_true, if_false]; exact .value hx hv (create_value t h _ hx)
    | true =>
      have he : x.literal.isEmpty = false := by simpa using hx
      have hr := literalTo_reads t h x.literal
      simp only [create, Option.getD_some, hp, if_true, he, Bool.false_eq_true, if_false]
      cases hb : (literalTo t x.literal).1 with
      | true =>
        rw [hb] at hr
        simp only [if_true] at hr ⊢
        rw [makeElement_word t _ hr.2.2, makeEmpty_eq, setAttr_empty]
        exact .sample hx hv hr.1
      | false =>
        rw [hb] at hr
        simp only [Bool.false_eq_true, if_false] at hr ⊢
        rw [makeEmpty_eq, setAttr_empty]
        exact .badSample hx hv hr.1

theorem hintOf_ok (r : Reg) (n : TypeName) (hpar : Parsed n) (l : List Elem) (h : (hintOf r n).result = .ok l) : Hint r n l := by
  unfold hintOf at h
  cases hb : n.base with
  | some t =>
    have hl : n.literal = [] := by rcases hpar with hp | hp; rw [hp] at hb; cases hb; exact hp
    simp only [hb, Option.isNone_some, Bool.false_and, Bool.false_eq_true, if_false, W.pure_result, Except.ok.injEq] at h
    subst h
    have : create (some t) n.literal .value = emptyOf t := by
      cases t <;> simp [create, isPrimitive, hl, kindOf, emptyOf, makeEmpty, Kind.name, Kind.default]
    rw [this]; exact .basic hb hl
  | none =>
    by_cases hl : n.literal = []
    · simp only [hb, hl, List.isEmpty_nil, Bool.not_true, Bool.and_false, Bool.false_eq_true, if_false, W.pure_result, Except.ok.injEq] at h
      subst h
      exact .nothing hb hl
    · have he : n.literal.isEmpty = false := by simpa using hl
      simp only [hb, he, Option.isNone_none, Bool.not_false, Bool.and_true, if_true, W.bind_ok] at h
      obtain ⟨o, ho, h⟩ := h
      have hs : ∀ t, o = some t ↔ StandsFor r n t := by
        intro t
        rw [typeOfName_ok r _ o ho t, StandsFor]
        simp [hb, hl]
      cases hv : n.isVariable with
      | false =>
        simp only [hv, Bool.not_false, Bool.and_true] at h
        cases o with
        | none =>
          simp only [Option.isNone_none, if_true, W.bind_ok, W.warn_result, W.pure_result, Except.ok.injEq] at h
          obtain ⟨_, _, rfl⟩ := h
          exact .undefined hb hl hv (fun t ht => by have := (hs t).2 ht; cases this)
        | some t =>
          simp only [Option.isNone_some, Bool.false_eq_true, if_false, W.pure_result, Except.ok.injEq] at h
          subst h
          have : create (some t) n.literal .element = (emptyOf t).setName n.literal := by
            cases t <;> simp [create, isPrimitive, he, kindOf, emptyOf, makeEmpty, Kind.name, Kind.default]
          rw [this]; exact .named hb hl hv ((hs t).1 rfl)
      | true =>
        simp only [hv, Bool.not_true, Bool.and_false, Bool.false_eq_true, if_false, if_true, W.pure_result, Except.ok.injEq] at h
        subst h
        by_cases hp : ∃ t, o = some t ∧ Primitive t
        · obtain ⟨t, rfl, hp⟩ := hp
          have hp' := (isPrimitive_iff t).2 hp
          have hr := literalTo_reads t hp n.literal
          simp only [create, Option.getD_some, hp', if_true, he, Bool.false_eq_true, if_false]
          cases hq : (literalTo t n.literal).1 with
          | true =>
            rw [hq] at hr
            simp only [if_true] at hr ⊢
            rw [makeElement_word t _ hr.2.2, makeEmpty_eq, setAttr_empty]
            exact .sample hb hl hv ((hs t).1 rfl) hp hr.1
          | false =>
            rw [hq] at hr
            simp only [Bool.false_eq_true, if_false] at hr ⊢
            rw [makeEmpty_eq, setAttr_empty]
            exact .badSample hb hl hv ((hs t).1 rfl) hp hr.1
        · have hn : isPrimitive (o.getD .object) = false := by
            cases o with
            | none => rfl
            | some t =>
              cases hq : isPrimitive t with
              | false => simpa using hq
              | true => exact absurd ⟨t, rfl, (isPrimitive_iff t).1 hq⟩ hp
          have : create o n.literal .sample = .mk (str "generic") [] [] true (.string n.literal) := by
            simp only [create, hn, Bool.false_eq_true, if_false]
            rfl
          rw [this]
          exact .generic hb hl hv (fun t ht hpr => hp ⟨t, (hs t).2 ht, hpr⟩)

theorem hints_ok (r : Reg) (ns : List TypeName) (hpar : ∀ n ∈ ns, Parsed n) (ls : List (List Elem))
    (h : (W.each (hintOf r) ns).result = .ok ls) : Hints r ns ls.flatten := by
  refine ⟨ls, ?_, rfl⟩
  rw [W.each_ok] at h
  have : ∀ (ns : List TypeName) (ls : List (List Elem)), (∀ n ∈ ns, Parsed n) → List.Forall₂ (fun a b => (hintOf r a).result = .ok b) ns ls →
      List.Forall₂ (Hint r) ns ls := by
    intro ns ls hp h
    induction h with
    | nil => exact .nil
    | cons h1 _ ih => exact .cons (hintOf_ok r _ (hp _ (by simp)) _ h1) (ih fun n hn => hp n (by simp [hn]))
  exact this ns ls hpar h

theorem addHints_ok (r : Reg) (t : BaseName) (ty : TypeDef) (d d' : Parts) (h : (addHints r t ty d).result = .ok d') :
    (Primitive t ∧ d' = d) ∨ (¬ Primitive t ∧ ∃ ls, (W.each (hintOf r) ty.spec.nested).result = .ok ls ∧
      d' = { d with hints := d.hints ++ [{ elements := ls.flatten }] }) := by
  unfold addHints at h
  split at h
  · rename_i hp; cases h; exact .inl ⟨(isPrimitive_iff t).1 hp, rfl⟩
  · rename_i hp
    simp only [W.bind_ok, W.pure_result, Except.ok.injEq] at h
    obtain ⟨ls, h1, rfl⟩ := h
    exact .inr ⟨fun a => hp ((isPrimitive_iff t).2 a), ls, h1, rfl⟩

/-! ## The line of a member -/

/-- The part that the values on the line are. -/
def lineInfo (t : BaseName) (v : ValueDef) (map : SourceMap) : Info :=
  if isPrimitive t then { text := (v.values.head?.getD {}).literal, map := map }
  else {
    elements := v.values.map fun x =>
      if t = .enum then
        (if isLiteral (create (some (nestedType v.type.spec.nested)) x.literal .value) then
          setFixed (create (some (nestedType v.type.spec.nested)) x.literal .value) else create (some (nestedType v.type.spec.nested)) x.literal .value)
      else create (some (nestedType v.type.spec.nested)) x.literal (if x.isVariable then .sample else .value)
    map := map }

def lineInfos (t : BaseName) (v : ValueDef) (map : SourceMap) (u : Use) : List Info := if useOf t v = u then [lineInfo t v map] else []

theorem fetchValues_ok (t : BaseName) (v : ValueDef) (map : SourceMap) (i : Info) (h : (fetchValues t v map).result = .ok i) :
    i = lineInfo t v map ∧ (Primitive t → v.values.length ≤ 1) := by
  unfold fetchValues at h
  unfold lineInfo
  split at h
  · rename_i hp
    rw [if_pos hp]
    split at h
    · cases h
    · cases h; exact ⟨rfl, fun _ => by omega⟩
  · rename_i hp
    rw [if_neg hp]
    cases h; exact ⟨rfl, fun a => absurd ((isPrimitive_iff t).2 a) hp⟩

theorem fetchValues_warnings (t : BaseName) (v : ValueDef) (map : SourceMap) : (fetchValues t v map).warnings = [] := by
  unfold fetchValues
  split
  · split <;> rfl
  · rfl

theorem useOf_lined (t : BaseName) (v : ValueDef) (h : Lined v) : useOf t v =
    if v.values.isEmpty then .nothing else if v.type.attributes.testBit bitDefault then .default
    else if v.type.attributes.testBit bitSample || variableValue t v then .sample else .value := by
  unfold useOf
  by_cases he : v.values = []
  · simp [he]
  · have he' : v.values.isEmpty = false := by simpa using he
    simp only [he, h.1, h.2, or_self, if_false, he', Bool.false_eq_true, bitDefault, bitSample]
    by_cases h4 : v.type.attributes.testBit 4 = true
    · simp only [h4, if_true]
    · simp only [h4, Bool.false_eq_true, if_false]
      congr 1
      simp only [Bool.or_eq_true, eq_iff_iff]
      refine or_congr Iff.rfl ?_
      simp only [variableValue, Bool.and_eq_true, bne_iff_ne, ne_eq, and_assoc]
      refine and_congr Iff.rfl (and_congr Iff.rfl ?_)
      cases hv : v.values with
      | nil => exact absurd hv he
      | cons x l => simp

theorem addValues_ok (t : BaseName) (v : ValueDef) (map : SourceMap) (d : Parts) (hl : Lined v) (h : (addValues t v map {}).result = .ok d) :
    d = { inlines := lineInfos t v map .value, samples := lineInfos t v map .sample, defaults := lineInfos t v map .default } ∧
    (Primitive t → v.values.length ≤ 1) ∧ (addValues t v map {}).warnings = missing v := by
  unfold addValues at h ⊢
  unfold lineInfos missing
  rw [useOf_lined t v hl]
  by_cases he : v.values.isEmpty = true
  · rw [if_pos he] at h
    simp only [he, if_true]
    have he' : v.values = [] := by simpa using he
    simp only [W.bind_ok, W.warn_result, Except.ok.injEq, W.pure_result] at h
    obtain ⟨_, _, rfl⟩ := h
    refine ⟨by simp, fun _ => by simp [he'], ?_⟩
    rw [W.warn_bind]
    have hc : v.type.base ≠ .object ∧ v.type.base ≠ .implicitObject ∧ v.values = [] := ⟨hl.1, hl.2, he'⟩
    rw [if_pos hc]
    exact List.append_nil _
  · rw [if_neg he] at h
    simp only [he, Bool.false_eq_true, if_false]
    have he' : ¬ v.values = [] := by simpa using he
    simp only [W.bind_ok] at h
    obtain ⟨i, hi, h⟩ := h
    obtain ⟨rfl, hlen⟩ := fetchValues_ok t v map i hi
    rw [W.bind_warnings _ _ _ hi, fetchValues_warnings]
    by_cases h4 : v.type.attributes.testBit bitDefault = true
    · simp only [h4, if_true] at h ⊢
      cases h
      exact ⟨by simp, hlen, by simp [he']⟩
    · simp only [h4, Bool.false_eq_true, if_false] at h ⊢
      by_cases h3 : (v.type.attributes.testBit bitSample || variableValue t v) = true
      · simp only [h3, if_true] at h ⊢
        cases h
        exact ⟨by simp, hlen, by simp [he']⟩
      · simp only [h3, Bool.false_eq_true, if_false] at h ⊢
        cases h
        exact ⟨by simp, hlen, by simp [he']⟩

theorem useOf_not_lined (t : BaseName) (v : ValueDef) (h : ¬ Lined v) : useOf t v = .nothing := by
  unfold useOf Lined at *
  by_cases h1 : v.type.base = .object
  · simp [h1]
  · by_cases h2 : v.type.base = .implicitObject
    · simp [h2]
    · exact absurd ⟨h1, h2⟩ h

theorem lineInfos_not_lined (t : BaseName) (v : ValueDef) (map : SourceMap) (u : Use) (hu : u ≠ .nothing) (h : ¬ Lined v) :
    lineInfos t v map u = [] := by
  unfold lineInfos
  rw [useOf_not_lined t v h, if_neg hu.symm]

theorem extractValue_ok (r : Reg) (t : BaseName) (description : Bytes) (v : ValueDef) (dm cm : SourceMap) (d : Parts)
    (h : (extractValue r t description v dm cm).result = .ok d) :
    d.inlines = lineInfos t v dm .value ∧ d.samples = lineInfos t v dm .sample ∧ d.defaults = lineInfos t v dm .default ∧ d.values = [] ∧
    d.descriptions = (if Lined v ∧ description ≠ [] then [(description, cm)] else []) ∧
    (Primitive t → d.hints = [] ∧ (Lined v → v.values.length ≤ 1) ∧ (extractValue r t description v dm cm).warnings = missing v) ∧
    (¬ Primitive t → ∃ ls, (W.each (hintOf r) (hintNames v)).result = .ok ls ∧ merged d.hints = ls.flatten) := by
  by_cases hl : Lined v
  · have hE : extractValue r t description v dm cm = (addValues t v dm {}).bind fun d =>
        (if v.values.isEmpty ∨ v.type.spec.nested.length > 1 then
          addHints r t v.type (if description.isEmpty then d else { d with descriptions := d.descriptions ++ [(description, cm)] })
        else W.pure (if description.isEmpty then d else { d with descriptions := d.descriptions ++ [(description, cm)] })) := by
      unfold extractValue
      rw [if_neg (by unfold Lined at hl; tauto)]
    rw [hE] at h ⊢
    simp only [W.bind_ok] at h
    obtain ⟨d0, h0, h⟩ := h
    obtain ⟨rfl, hlen, hw⟩ := addValues_ok t v dm d0 hl h0
    rw [W.bind_warnings _ _ _ h0, hw]
    simp only at h ⊢
    have hdesc : ∀ (d1 : Parts), d1 = (if description.isEmpty = true then
          ({ inlines := lineInfos t v dm .value, samples := lineInfos t v dm .sample, defaults := lineInfos t v dm .default } : Parts)
        else { inlines := lineInfos t v dm .value, samples := lineInfos t v dm .sample, defaults := lineInfos t v dm .default, descriptions := [(description, cm)] }) →
        d1 = { inlines := lineInfos t v dm .value, samples := lineInfos t v dm .sample, defaults := lineInfos t v dm .default, descriptions := if Lined v ∧ description ≠ [] then [(description, cm)] else [] } := by
      intro d1 h1
      rw [h1]
      by_cases hd : description = []
      · subst hd; simp
      · have : description.isEmpty = false := by simpa using hd
        simp [hl, hd]
    have hde := hdesc _ rfl
    simp only [List.nil_append] at h ⊢
    rw [hde] at h ⊢
    have hc0 : (v.values.isEmpty = true ∨ v.type.spec.nested.length > 1) = (v.values = [] ∨ v.type.spec.nested.length > 1) := by simp
    by_cases hn : v.values = [] ∨ v.type.spec.nested.length > 1
    · have hn' := hc0.mpr hn
      have hh : hintNames v = v.type.spec.nested := by
        unfold hintNames; rw [if_pos ⟨hl.1, hl.2, hn⟩]
      rw [if_pos hn'] at h
      simp only [hn', if_true]
      rw [hh]
      rcases addHints_ok r t v.type _ d h with ⟨hp, rfl⟩ | ⟨hp, ls, hls, rfl⟩
      · refine ⟨rfl, rfl, rfl, rfl, rfl, fun _ => ⟨rfl, fun _ => hlen hp, ?_⟩, fun a => absurd hp a⟩
        simp [addHints, (isPrimitive_iff t).2 hp]
      · exact ⟨rfl, rfl, rfl, rfl, rfl, fun a => absurd a hp, fun _ => ⟨ls, hls, by simp [merged]⟩⟩
    · have hn' : ¬ (v.values.isEmpty = true ∨ v.type.spec.nested.length > 1) := by rw [hc0]; exact hn
      have hh : hintNames v = [] := by
        unfold hintNames; rw [if_neg (fun a => hn a.2.2)]
      rw [if_neg hn'] at h
      simp only [hn', if_false]
      rw [hh]
      cases h
      exact ⟨rfl, rfl, rfl, rfl, rfl, fun hp => ⟨rfl, fun _ => hlen hp, by simp⟩, fun _ => ⟨[], by simp [W.each], rfl⟩⟩
  · have hc : v.type.base = .object ∨ v.type.base = .implicitObject := by unfold Lined at hl; tauto
    have hE : extractValue r t description v dm cm = W.pure {} := by unfold extractValue; rw [if_pos hc]
    rw [hE] at h ⊢
    cases h
    refine ⟨(lineInfos_not_lined t v dm _ (by simp) hl).symm, (lineInfos_not_lined t v dm _ (by simp) hl).symm,
      (lineInfos_not_lined t v dm _ (by simp) hl).symm, rfl, by simp [hl], fun _ => ⟨rfl, fun a => absurd a hl, ?_⟩, fun _ => ⟨[], ?_, rfl⟩⟩
    · unfold missing; rw [if_neg (by tauto)]; rfl
    · unfold hintNames; rw [if_neg (by tauto)]; simp [W.each]

/-! ## The sections of lists, objects and enumerations -/

/-- What becomes of an entry of an enumeration: those that are literals get the flag `fixed`. -/
def entryE (t : BaseName) (e : Elem) : Elem := if t = .enum then (if isLiteral e then setFixed e else e) else e

/-- The part that a section is. -/
def SectionInfo (r : Reg) (t nested : BaseName) (s : Section) (i : Info) : Prop :=
  ∃ l, (convertElements r nested s.elements).result = .ok l ∧ i.elements = l.map (entryE t)

theorem fetchSection_ok (r : Reg) (t nested : BaseName) (h : ¬ Primitive t) (k : Klass) (de v : Bytes) (es : List Element) (dm vm : SourceMap) (i : Info)
    (hi : (fetchSection t v vm (convertElements r nested es)).result = .ok i) : SectionInfo r t nested (.mk k de v es dm vm) i := by
  have hp : ¬ isPrimitive t = true := fun a => h ((isPrimitive_iff t).1 a)
  unfold fetchSection at hi
  rw [if_neg hp] at hi
  simp only [W.bind_ok, W.pure_result, Except.ok.injEq] at hi
  obtain ⟨l, hl, rfl⟩ := hi
  refine ⟨l, hl, ?_⟩
  unfold entryE
  by_cases ht : t = .enum
  · simp [ht]
  · simp [ht]

structure SectionParts (r : Reg) (t nested : BaseName) (ss : List Section) (d d' : Parts) : Prop where
  inlines : d'.inlines = d.inlines
  hints : d'.hints = d.hints
  descriptions : d'.descriptions = d.descriptions ++ blocks ss
  samples : ∃ l, List.Forall₂ (SectionInfo r t nested) (filled .sample ss) l ∧ d'.samples = d.samples ++ l
  defaults : ∃ l, List.Forall₂ (SectionInfo r t nested) (filled .default ss) l ∧ d'.defaults = d.defaults ++ l
  values : ∃ l, List.Forall₂ (SectionInfo r t nested) (ss.filter fun s => s.klass = .members) l ∧ d'.values = d.values ++ l
  classes : ∀ s ∈ ss, s.klass ≠ .undefined

theorem filled_cons (k k' : Klass) (de v : Bytes) (es : List Element) (dm vm : SourceMap) (rest : List Section) :
    filled k (.mk k' de v es dm vm :: rest) =
      (if k' = k ∧ ¬ (v.isEmpty && es.isEmpty) = true then [Section.mk k' de v es dm vm] else []) ++ filled k rest := by
  simp only [filled, List.filter_cons, Section.klass, Section.value, Section.elements]
  by_cases hk : k' = k <;> cases v <;> cases es <;> simp [hk]

theorem blocks_cons (k : Klass) (de v : Bytes) (es : List Element) (dm vm : SourceMap) (rest : List Section) :
    blocks (.mk k de v es dm vm :: rest) = (if k = .description then [(de, dm)] else []) ++ blocks rest := by
  cases k <;> simp [blocks, Section.klass, Section.description, Section.descriptionMap]

theorem members_cons (k : Klass) (de v : Bytes) (es : List Element) (dm vm : SourceMap) (rest : List Section) :
    (Section.mk k de v es dm vm :: rest).filter (fun s => s.klass = .members) =
      (if k = .members then [Section.mk k de v es dm vm] else []) ++ rest.filter fun s => s.klass = .members := by
  cases k <;> simp [Section.klass]

theorem section_parts (r : Reg) (t nested : BaseName) (h : ¬ Primitive t) (s : Section) (d d' : Parts)
    (hd : (convertSection r t nested s d).result = .ok d') : SectionParts r t nested [s] d d' := by
  have hp : isPrimitive t = false := by
    cases hq : isPrimitive t with
    | false => rfl
    | true => exact absurd ((isPrimitive_iff t).1 hq) h
  cases s with
  | mk k de v es dm vm =>
    simp only [convertSection] at hd
    have hnil : ∀ k, filled k [] = [] := fun _ => rfl
    cases k with
    | undefined => simp [addSection] at hd
    | description =>
      simp only [addSection] at hd
      cases hd
      exact ⟨rfl, rfl, by simp [blocks, Section.klass, Section.description, Section.descriptionMap],
        ⟨[], by simp [filled_cons, hnil], by simp⟩, ⟨[], by simp [filled_cons, hnil], by simp⟩, ⟨[], by simp [Section.klass], by simp⟩, by simp [Section.klass]⟩
    | members =>
      simp only [addSection, hp, Bool.false_eq_true, if_false, W.bind_ok, W.pure_result, Except.ok.injEq] at hd
      obtain ⟨i, hi, rfl⟩ := hd
      have := fetchSection_ok r t nested h .members de v es dm vm i hi
      exact ⟨rfl, rfl, by simp [blocks, Section.klass],
        ⟨[], by simp [filled_cons, hnil], by simp⟩, ⟨[], by simp [filled_cons, hnil], by simp⟩, ⟨[i], by simpa [Section.klass] using this, rfl⟩, by simp [Section.klass]⟩
    | sample =>
      simp only [addSection] at hd
      by_cases hc : (v.isEmpty && es.isEmpty) = true
      · rw [if_pos hc] at hd
        cases hd
        exact ⟨rfl, rfl, by simp [blocks, Section.klass],
          ⟨[], by rw [filled_cons, if_neg (fun a => a.2 hc)]; exact .nil, by simp⟩, ⟨[], by simp [filled_cons, hnil], by simp⟩, ⟨[], by simp [Section.klass], by simp⟩, by simp [Section.klass]⟩
      · rw [if_neg hc] at hd
        simp only [W.bind_ok, W.pure_result, Except.ok.injEq] at hd
        obtain ⟨i, hi, rfl⟩ := hd
        have := fetchSection_ok r t nested h .sample de v es dm vm i hi
        exact ⟨rfl, rfl, by simp [blocks, Section.klass],
          ⟨[i], by rw [filled_cons, if_pos ⟨rfl, hc⟩]; exact .cons this .nil, rfl⟩, ⟨[], by simp [filled_cons, hnil], by simp⟩, ⟨[], by simp [Section.klass], by simp⟩, by simp [Section.klass]⟩
    | default =>
      simp only [addSection] at hd
      by_cases hc : (v.isEmpty && es.isEmpty) = true
      · rw [if_pos hc] at hd
        cases hd
        exact ⟨rfl, rfl, by simp [blocks, Section.klass], ⟨[], by simp [filled_cons, hnil], by simp⟩,
          ⟨[], by rw [filled_cons, if_neg (fun a => a.2 hc)]; exact .nil, by simp⟩, ⟨[], by simp [Section.klass], by simp⟩, by simp [Section.klass]⟩
      · rw [if_neg hc] at hd
        simp only [W.bind_ok, W.pure_result, Except.ok.injEq] at hd
        obtain ⟨i, hi, rfl⟩ := hd
        have := fetchSection_ok r t nested h .default de v es dm vm i hi
        exact ⟨rfl, rfl, by simp [blocks, Section.klass], ⟨[], by simp [filled_cons, hnil], by simp⟩,
          ⟨[i], by rw [filled_cons, if_pos ⟨rfl, hc⟩]; exact .cons this .nil, rfl⟩, ⟨[], by simp [Section.klass], by simp⟩, by simp [Section.klass]⟩

theorem forall2_append {α β : Type} {R : α → β → Prop} {a b : List α} {c d : List β} (h : List.Forall₂ R a c) (h' : List.Forall₂ R b d) :
    List.Forall₂ R (a ++ b) (c ++ d) := by
  induction h with
  | nil => exact h'
  | cons h1 _ ih => exact .cons h1 ih

theorem sections_complex (r : Reg) (t nested : BaseName) (h : ¬ Primitive t) : ∀ (ss : List Section) (d d' : Parts),
    (convertSections r t nested ss d).result = .ok d' → SectionParts r t nested ss d d'
  | [], d, d', hd => by
    simp only [convertSections] at hd
    cases hd
    exact ⟨rfl, rfl, by simp [blocks], ⟨[], by simp [filled], by simp⟩, ⟨[], by simp [filled], by simp⟩, ⟨[], by simp, by simp⟩, by simp⟩
  | s :: rest, d, d', hd => by
    simp only [convertSections, W.bind_ok] at hd
    obtain ⟨d1, h1, h2⟩ := hd
    have a := section_parts r t nested h s d d1 h1
    have b := sections_complex r t nested h rest d1 d' h2
    have f : ∀ k, filled k (s :: rest) = filled k [s] ++ filled k rest := by
      intro k; unfold filled; rw [← List.filter_append]; rfl
    refine ⟨b.inlines.trans a.inlines, b.hints.trans a.hints, ?_, ?_, ?_, ?_, ?_⟩
    · rw [b.descriptions, a.descriptions, List.append_assoc]
      congr 1
      unfold blocks; rw [← List.map_append, ← List.filter_append]; rfl
    · obtain ⟨l1, f1, e1⟩ := a.samples; obtain ⟨l2, f2, e2⟩ := b.samples
      exact ⟨l1 ++ l2, by rw [f]; exact forall2_append f1 f2, by rw [e2, e1, List.append_assoc]⟩
    · obtain ⟨l1, f1, e1⟩ := a.defaults; obtain ⟨l2, f2, e2⟩ := b.defaults
      exact ⟨l1 ++ l2, by rw [f]; exact forall2_append f1 f2, by rw [e2, e1, List.append_assoc]⟩
    · obtain ⟨l1, f1, e1⟩ := a.values; obtain ⟨l2, f2, e2⟩ := b.values
      refine ⟨l1 ++ l2, ?_, by rw [e2, e1, List.append_assoc]⟩
      have : (s :: rest).filter (fun s => decide (s.klass = .members)) = [s].filter (fun s => decide (s.klass = .members)) ++ rest.filter fun s => decide (s.klass = .members) := by
        rw [← List.filter_append]; rfl
      rw [this]; exact forall2_append f1 f2
    · intro x hx
      rcases List.mem_cons.1 hx with rfl | hx
      · exact a.classes x (by simp)
      · exact b.classes x hx

end Verif.DataStructure
