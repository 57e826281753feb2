import Verif.Props.C69
import Verif.Proof.DataStructureEnum
/-!
# C70: enumerations
-/
namespace Verif.Props
open Verif Verif.Refract Verif.Registry Verif.Spec Verif.Spec.DataStructure Verif.DataStructure
open Verif.NamedTypes (BaseName TypeName)
open Verif.Mson (Value TypeDef TypeSpec ValueDef PropertyName)

theorem data_enum (d : Parts) (e e' : Elem) (hd : PartsSound d) (he : attr e "enumerations" = none) (hs : attr e "samples" = none)
    (hdf : attr e "default" = none) (hh : e.has = false) (h : (dataToElement .enum d e).result = .ok e') :
    Enumeration (choices d) e' (dataToElement .enum d e).warnings := by
  unfold dataToElement at h ⊢
  rw [W.warn_bind] at h ⊢
  have hv : ((d.inlines ++ d.values ++ d.samples ++ d.defaults ++ d.hints).flatMap (validity .enum)) = [] := by
    rw [List.flatMap_eq_nil_iff]; intro _ _; rfl
  rw [hv, List.nil_append, if_pos rfl] at *
  simp only [W.bind_ok] at h
  obtain ⟨e1, h1, h2⟩ := h
  simp only
  rw [W.bind_warnings _ _ _ h1]
  obtain ⟨⟨enums, n, hE, hat, hw⟩, k⟩ := saveEnum_enumerates d e e1 hd he h1
  have k1 := keeps_saveSamples .enum d.samples e1
  have k2 := keeps_saveDefault .enum d.defaults _ e' h2
  have ka : ∀ q, q ≠ str "enumerations" → Infos.find e1.attributes q = Infos.find e.attributes q := by
    intro q hq
    rw [k.attributes q (by simpa using hq)]
    split
    · rw [attributes_setData]
    · rfl
  have hsm : attr (saveSamples .enum d.samples e1) "samples" = listed ((choices d).samples.flatten.map wrapped) := by
    unfold saveSamples listed choices
    simp only [if_pos]
    rw [merged_flatten]
    by_cases hm : (d.samples.map (·.elements)).flatten = []
    · rw [if_pos (by rw [hm]; rfl), if_pos (by rw [hm]; rfl)]
      unfold attr; rw [ka _ (by decide)]; exact hs
    · rw [if_neg (by rw [List.isEmpty_iff]; exact hm), if_neg (by rw [List.map_eq_nil_iff]; exact hm), attr, find_setAttr, if_pos rfl]
      rfl
  have hdn : attr (saveSamples .enum d.samples e1) "default" = none := by
    unfold attr; rw [k1.attributes _ (by decide), ka _ (by decide)]; exact hdf
  have hsev : (severalDefaults (choices d) = true) = (d.defaults.length > 1 ∨ (d.defaults.head?.getD {}).elements.length > 1) := by
    unfold severalDefaults choices
    cases d.defaults with
    | nil => simp
    | cons i r => simp
  have hdata : e'.has = (match chosen (choices d) with | some c => e.setData (.enum (some c)) | none => e).has ∧
      e'.data = (match chosen (choices d) with | some c => e.setData (.enum (some c)) | none => e).data :=
    ⟨(k2.has.trans k1.has).trans k.has, (k2.data.trans k1.data).trans k.data⟩
  refine ⟨⟨enums, n, hE, ?_, ?_⟩, ?_, ?_, ?_, ?_, ?_, ?_⟩
  · unfold attr; rw [k2.attributes _ (by decide), k1.attributes _ (by decide)]; exact hat
  · rw [hw]
    congr 1
    unfold saveDefault
    cases hl : d.defaults.getLast? with
    | none =>
      have : d.defaults = [] := by simpa using hl
      simp [severalDefaults, choices, this]
    | some last =>
      simp only [if_pos]
      rw [W.warn_bind]
      simp only [W.pure_warnings, List.append_nil]
      by_cases hc : severalDefaults (choices d) = true
      · rw [if_pos hc, if_pos (hsev ▸ hc)]
      · rw [if_neg hc, if_neg (fun a => hc (hsev ▸ a))]
  · intro x hx
    rw [hx] at hdata
    rw [hdata.1, hdata.2, has_setData, data_setData]; exact ⟨rfl, rfl⟩
  · intro hx
    rw [hx] at hdata
    rw [hdata.1]; exact hh
  · unfold attr; rw [k2.attributes _ (by decide)]; exact hsm
  · intro x hx
    unfold saveDefault at h2
    cases hl : d.defaults.getLast? with
    | none =>
      have : d.defaults = [] := by simpa using hl
      simp [choices, this] at hx
    | some last =>
      rw [hl] at h2
      simp only [if_pos] at h2
      rw [W.warn_bind] at h2
      cases h2
      rw [attr, find_setAttr, if_pos rfl, merged_flatten]
      simp only [choices] at hx
      rw [hx]; rfl
  · intro hx
    have : d.defaults = [] := by simpa [choices] using hx
    unfold saveDefault at h2
    rw [this] at h2
    cases h2
    exact hdn
  · intro hne hx
    unfold saveDefault at h2
    cases hl : d.defaults.getLast? with
    | none => exact absurd (by simpa using hl) (fun a => hne (by simp [choices, a]))
    | some last =>
      rw [hl] at h2
      simp only [if_pos] at h2
      rw [W.warn_bind] at h2
      cases h2
      rw [attr, find_setAttr, if_pos rfl, merged_flatten]
      simp only [choices] at hx
      rw [hx]; rfl

theorem enum_not_primitive : ¬ Primitive .enum := by rintro (h | h | h) <;> cases h

theorem lineInfo_choices (v : ValueDef) (m : SourceMap) : List.Forall₂ (Choice (itemType v.type.spec.nested)) v.values (lineInfo .enum v m).elements := by
  unfold lineInfo
  simp only [isPrimitive, Bool.false_eq_true, if_false, if_true]
  rw [nestedType_eq]
  have hp := itemType_primitive v.type.spec.nested
  induction v.values with
  | nil => exact .nil
  | cons x l ih =>
    refine .cons ?_ ih
    have hf := entryE_flagged (create (some (itemType v.type.spec.nested)) x.literal .value) (sound_create _ _ _)
    unfold entryE at hf
    rw [if_pos rfl] at hf
    by_cases hx : x.literal = []
    · refine .none hx ?_
      have : create (some (itemType v.type.spec.nested)) x.literal .value = emptyOf (itemType v.type.spec.nested) := by
        simp [create, (isPrimitive_iff _).2 hp, hx, makeEmpty_eq]
      simp only
      rw [this] at hf ⊢
      exact hf
    · exact .value hx (create_value _ hp _ hx) hf

theorem lineInfos_choices (v : ValueDef) (m : SourceMap) (u : Use) :
    List.Forall₂ (List.Forall₂ (Choice (itemType v.type.spec.nested))) (lineLists .enum v u) ((lineInfos .enum v m u).map (·.elements)) := by
  unfold lineLists lineInfos
  split
  · exact .cons (lineInfo_choices v m) .nil
  · exact .nil

theorem sectionInfo_entries (r : Reg) (nested : BaseName) (ss : List Section) (is : List Info)
    (h : List.Forall₂ (SectionInfo r .enum nested) ss is) : List.Forall₂ (Entries r nested) ss (is.map (·.elements)) := by
  induction h with
  | nil => exact .nil
  | cons h1 _ ih =>
    obtain ⟨l, hl, he⟩ := h1
    refine .cons ⟨l, hl, ?_⟩ ih
    simp only
    rw [he]
    exact flagged_all l (convertElements_sound r nested _ l hl)

/-- C70: an enumeration lists what is written of it, each entry once; its value is the only one that is given, its samples and its default
    are values of it. -/
theorem C70_member (r : Reg) (name : Option (PropertyName × SourceMap)) (nested : BaseName) (m : Member) (e : Elem)
    (h : (convertMember r name nested m).result = .ok (some e)) (hm : MemberIs r nested m .enum)
    (hpar : ∀ n ∈ m.definition.type.spec.nested, Parsed n) :
    ∃ v c before ws, theValue e = some v ∧
      Chosen r m.definition.type.spec.nested (hintNames m.definition) (lineLists .enum m.definition) m.sections c ∧
      Enumeration c v ws ∧ (convertMember r name nested m).warnings = before ++ ws := by
  have main : ∃ v v' d0 d before, Converted r .enum m v d0 d ∧ theValue e = some v' ∧ Keeps [str "typeAttributes"] [str "description"] v v' ∧
      (convertMember r name nested m).warnings = before ++ (dataToElement .enum d (baseE .enum m)).warnings := by
    cases name with
    | none =>
      obtain ⟨t, v, d0, d, ht, hc, ho, hw⟩ := member_value r nested m _ h
      obtain rfl := memberIs_unique hm ht
      cases ho
      have k := (keeps_setTypeAttributes m.definition.type.attributes v).trans (keeps_setDescription d.descriptions (setTypeAttributes m.definition.type.attributes v))
      have hk := (data_kind _ d _ v hc.data (baseE_kind _ m).1).1
      refine ⟨v, _, d0, d, clashing m.definition.type.attributes ++ ((extractValue r .enum m.description m.definition m.definitionMap m.descriptionMap).warnings ++
        (convertSections r .enum (itemType m.definition.type.spec.nested) m.sections d0).warnings), hc, theValue_value _ _ (by rw [k.kind, hk]), k, ?_⟩
      rw [hw]; simp [convertedWarnings]
    | some p =>
      obtain ⟨key, _, hh⟩ := member_property r p.1 p.2 nested m _ h
      rcases hh with ⟨_, ho, _⟩ | ⟨_, t, v, d0, d, ht, hc, ho, hw⟩
      · cases ho
      · obtain rfl := memberIs_unique hm ht
        cases ho
        have k := (keeps_setTypeAttributes m.definition.type.attributes (memberE p.1 key v)).trans
          (keeps_setDescription (propertyDescriptions m.description m.descriptionMap m.sections) _)
        have : ∀ a b, theValue a = some v → b.data = a.data → (∃ x y, a.data = .member x y) → theValue b = some v := by
          intro a b ha hb ⟨x, y, hxy⟩
          unfold theValue at ha ⊢
          rw [hxy] at ha
          rw [hb, hxy]
          exact ha
        refine ⟨v, v, d0, d, clashing m.definition.type.attributes ++ ((propertyKey r p.1 p.2).warnings ++ ((extractValue r .enum m.description m.definition m.definitionMap m.descriptionMap).warnings ++
          (convertSections r .enum (itemType m.definition.type.spec.nested) m.sections d0).warnings)), hc,
          this _ _ (memberE_value p.1 key v) k.data (by unfold memberE; split <;> exact ⟨_, _, rfl⟩), .refl _ _ _, ?_⟩
        rw [hw]; simp [convertedWarnings]
  obtain ⟨v, v', d0, d, before, hc, hv, k, hw⟩ := main
  have hl := extractValue_ok r .enum _ _ _ _ d0 hc.line
  have hs := sections_complex r .enum _ enum_not_primitive m.sections d0 d hc.sections
  have hsd := convertSections_sound r .enum _ m.sections d0 d (extractValue_sound r .enum _ _ _ _ d0 hc.line) hc.sections
  have hE := data_enum d _ v hsd (baseE_attr _ m _ (by decide)) (baseE_attr _ m _ (by decide)) (baseE_attr _ m _ (by decide)) (baseE_kind _ m).2.1 hc.data
  refine ⟨v', choices d, before, _, hv, ?_, ⟨?_, ?_, ?_, ?_, ?_, ?_, ?_⟩, hw⟩
  · obtain ⟨ls, hls, hlm⟩ := hl.2.2.2.2.2.2 enum_not_primitive
    obtain ⟨vs, hvs, hvm⟩ := hs.values
    obtain ⟨ms, hms, hmm⟩ := hs.samples
    obtain ⟨ms', hms', hmm'⟩ := hs.defaults
    refine ⟨?_, ?_, ⟨_, _, lineInfos_choices m.definition m.definitionMap .sample, sectionInfo_entries r _ _ _ hms, ?_⟩,
      ⟨_, _, lineInfos_choices m.definition m.definitionMap .default, sectionInfo_entries r _ _ _ hms', ?_⟩, ?_⟩
    · simp only [choices]; rw [hs.inlines, hl.1]; exact lineInfos_choices _ _ _
    · simp only [choices]; rw [hvm, hl.2.2.2.1]; exact sectionInfo_entries r _ _ _ hvs
    · simp only [choices]; rw [hmm, hl.2.1, List.map_append]
    · simp only [choices]; rw [hmm', hl.2.2.1, List.map_append]
    · simp only [choices]; rw [hs.hints, hlm]
      refine hints_ok r _ ?_ ls hls
      intro n hn
      unfold hintNames at hn
      split at hn
      · exact hpar n hn
      · simp at hn
  · obtain ⟨enums, n, h1, h2, h3⟩ := hE.enumerations
    exact ⟨enums, n, h1, by rw [attr, k.attributes _ (by decide)]; exact h2, h3⟩
  · intro x hx; rw [k.has, k.data]; exact hE.content x hx
  · intro hx; rw [k.has]; exact hE.noContent hx
  · rw [attr, k.attributes _ (by decide)]; exact hE.samples
  · intro x hx; rw [attr, k.attributes _ (by decide)]; exact hE.default x hx
  · intro hx; rw [attr, k.attributes _ (by decide)]; exact hE.noDefault hx
  · intro hx hy; rw [attr, k.attributes _ (by decide)]; exact hE.emptyDefault hx hy

/-- C70: the same for a named type, which has no line. -/
theorem C70_named (r : Reg) (ds : NamedType) (e : Elem) (h : (msonToRefract r ds).result = .ok (some e)) (hn : NamedIs r ds .enum)
    (hpar : ∀ n ∈ ds.type.spec.nested, Parsed n) :
    ∃ c before ws, Chosen r ds.type.spec.nested ds.type.spec.nested (fun _ => []) ds.sections c ∧ Enumeration c e ws ∧
      (msonToRefract r ds).warnings = before ++ ws := by
  rcases named_ok r ds _ h with ⟨_, _, _, ho⟩ | ⟨_, t', d0, d, e', ht', h0, h1, hd, ho, hw⟩
  · cases ho
  · cases ho
    have htt : BaseName.enum = t' := by
      rcases hn with hn | ⟨hn, hc⟩
      · rcases ht' with ht' | ⟨ht', rfl⟩
        · exact standsFor_unique hn ht'
        · exact absurd hn (ht' _)
      · cases hc
    subst htt
    rcases addHints_ok r .enum ds.type {} d0 h0 with ⟨hp, _⟩ | ⟨_, hls, hh, rfl⟩
    · exact absurd hp enum_not_primitive
    have hs := sections_complex r .enum _ enum_not_primitive ds.sections _ d h1
    have na : ∀ k, k ≠ str "sourceMap" → k ≠ str "typeAttributes" → Infos.find (namedE .enum ds d.descriptions).attributes k = none := by
      intro k hk hk'
      rw [(namedE_keeps .enum ds _).attributes _ (by simp [hk, hk'])]
      unfold setType; split <;> rfl
    have hhas : (namedE .enum ds d.descriptions).has = false := by
      rw [(namedE_keeps .enum ds _).has]; unfold setType; split <;> rfl
    have hsd := convertSections_sound r .enum _ ds.sections _ d (addHints_sound r .enum ds.type {} _ partsSound_empty h0) h1
    have hE := data_enum d _ e hsd (na _ (by decide) (by decide)) (na _ (by decide) (by decide)) (na _ (by decide) (by decide)) hhas hd
    obtain ⟨vs, hvs, hvm⟩ := hs.values
    obtain ⟨ms, hms, hmm⟩ := hs.samples
    obtain ⟨ms', hms', hmm'⟩ := hs.defaults
    refine ⟨choices d, _, _, ⟨?_, ?_, ⟨[], _, .nil, sectionInfo_entries r _ _ _ hms, ?_⟩, ⟨[], _, .nil, sectionInfo_entries r _ _ _ hms', ?_⟩, ?_⟩, hE,
      by rw [hw, ← List.append_assoc]⟩
    · simp only [choices]; rw [hs.inlines]; exact .nil
    · simp only [choices]; rw [hvm]; exact sectionInfo_entries r _ _ _ hvs
    · simp only [choices]; rw [hmm]; rfl
    · simp only [choices]; rw [hmm']; rfl
    · simp only [choices]; rw [hs.hints]
      have := hints_ok r _ hpar hls hh
      simpa [merged] using this

/-! ## What that means -/

/-- C70: no two of the gathered entries are the same. -/
theorem C70_distinct (l : List (Elem × Bool)) (kept : List Elem) (n : Nat) (h : Gathered l [] kept n) : kept.Pairwise fun x y => ¬ Alike y x := by
  suffices ∀ {l there kept n}, Gathered l there kept n → there.Pairwise (fun x y => ¬ Alike y x) → kept.Pairwise fun x y => ¬ Alike y x from
    this h .nil
  intro l there kept n h
  induction h with
  | done => exact id
  | new hx _ ih =>
    intro hp
    refine ih (List.pairwise_append.2 ⟨hp, List.pairwise_singleton _ _, ?_⟩)
    intro a ha b hb
    simp only [List.mem_singleton] at hb
    subst hb
    exact hx a ha
  | again _ _ ih => exact ih

/-- C70: every entry that is written is among them. -/
theorem C70_complete (l : List (Elem × Bool)) (kept : List Elem) (n : Nat) (h : Gathered l [] kept n) (x : Elem) (hx : x ∈ l.map (·.1)) :
    ∃ y ∈ kept, Alike x y := by
  suffices ∀ {l there kept n}, Gathered l there kept n → (∀ y ∈ there, y ∈ kept) ∧ ∀ x ∈ l.map (·.1), ∃ y ∈ kept, Alike x y from
    (this h).2 x hx
  intro l there kept n h
  induction h with
  | done => exact ⟨fun _ hy => hy, by simp⟩
  | new _ _ ih =>
    refine ⟨fun y hy => ih.1 y (by simp [hy]), ?_⟩
    intro x hx
    rcases List.mem_cons.1 hx with rfl | hx
    · exact ⟨_, ih.1 _ (by simp), alike_refl _⟩
    · exact ih.2 x hx
  | again hy _ ih =>
    refine ⟨ih.1, ?_⟩
    intro x hx
    rcases List.mem_cons.1 hx with rfl | hx
    · obtain ⟨y, hy, hxy⟩ := hy
      exact ⟨y, ih.1 y hy, hxy⟩
    · exact ih.2 x hx

/-- C70: they are written entries, in the order in which they are written. -/
theorem C70_ordered (l : List (Elem × Bool)) (kept : List Elem) (n : Nat) (h : Gathered l [] kept n) : kept.Sublist (l.map (·.1)) := by
  suffices ∀ {l there kept n}, Gathered l there kept n → ∃ k, kept = there ++ k ∧ k.Sublist (l.map (·.1)) by
    obtain ⟨k, rfl, hk⟩ := this h
    exact hk
  intro l there kept n h
  induction h with
  | done => exact ⟨[], by simp, .slnil⟩
  | @new x _ _ _ _ _ _ _ ih =>
    obtain ⟨k, rfl, hk⟩ := ih
    exact ⟨x :: k, by simp, by rw [List.map_cons]; exact hk.cons_cons _⟩
  | again _ _ ih =>
    obtain ⟨k, rfl, hk⟩ := ih
    exact ⟨k, rfl, by rw [List.map_cons]; exact hk.cons _⟩

/-- C70: there is no warning exactly if no entry whose repetition is warned about repeats an earlier one. -/
theorem C70_quiet (l : List (Elem × Bool)) (kept : List Elem) (n : Nat) (h : Gathered l [] kept n) :
    n = 0 ↔ ∀ a x b, l = a ++ (x, true) :: b → ∀ y ∈ a.map (·.1), ¬ Alike x y := by
  suffices ∀ {l there kept n}, Gathered l there kept n →
      (n = 0 ↔ ∀ a x b, l = a ++ (x, true) :: b → ∀ y ∈ there ++ a.map (·.1), ¬ Alike x y) by simpa using this h
  intro l there kept n h
  induction h with
  | done => simp
  | @new x b rest there result n hx _ ih =>
    rw [ih]
    constructor
    · intro hq a z c hl y hy
      cases a with
      | nil =>
        simp only [List.nil_append, List.cons.injEq, Prod.mk.injEq] at hl
        obtain ⟨⟨rfl, _⟩, _⟩ := hl
        simp only [List.map_nil, List.append_nil] at hy
        exact hx y hy
      | cons p a =>
        simp only [List.cons_append, List.cons.injEq] at hl
        obtain ⟨rfl, rfl⟩ := hl
        exact hq a z c rfl y (by simpa using hy)
    · intro hq a z c hl y hy
      exact hq ((x, b) :: a) z c (by rw [hl]; rfl) y (by simpa using hy)
  | @again x b rest there result n hx _ ih =>
    obtain ⟨y0, hy0, hxy⟩ := hx
    constructor
    · intro hn a z c hl y hy
      have hb : b = false := by cases b with
        | false => rfl
        | true => simp at hn
      have hn' : n = 0 := by omega
      cases a with
      | nil =>
        simp only [List.nil_append, List.cons.injEq, Prod.mk.injEq] at hl
        rw [hb] at hl; cases hl.1.2
      | cons p a =>
        simp only [List.cons_append, List.cons.injEq] at hl
        obtain ⟨rfl, rfl⟩ := hl
        intro hzy
        rcases List.mem_append.1 hy with hy | hy
        · exact ih.1 hn' a z c rfl y (by simp [hy]) hzy
        · simp only [List.map_cons, List.mem_cons] at hy
          rcases hy with rfl | hy
          · exact ih.1 hn' a z c rfl y0 (by simp [hy0]) (alike_trans hzy hxy)
          · exact ih.1 hn' a z c rfl y (by simp [hy]) hzy
    · intro hq
      have hb : b = false := by cases b with
        | false => rfl
        | true => exact absurd hxy (hq [] x rest rfl y0 (by simpa using hy0))
      have := ih.2 (fun a z c hl y hy => hq ((x, b) :: a) z c (by rw [hl]; rfl) y (by
        rcases List.mem_append.1 hy with hy | hy
        · simp [hy]
        · simp only [List.map_cons, List.mem_append, List.mem_cons]; exact .inr (.inr hy)))
      simp [hb, this]

/-- `- a, b, a (enum)` with the sections `Sample: c` and `Default: a`: the second `a` is warned about, the default is not. -/
def enumMember : Member :=
  .mk [] ⟨[⟨str "a", false⟩, ⟨str "b", false⟩, ⟨str "a", false⟩], ⟨.value, ⟨⟨some .enum, [], false⟩, []⟩, 0⟩⟩
    [.mk .sample [] [] [.value (.mk [] ⟨[⟨str "c", false⟩], {}⟩ [] [] [] [])] [] [],
     .mk .default [] [] [.value (.mk [] ⟨[⟨str "a", false⟩], {}⟩ [] [] [] [])] [] []] [] [] []
def fixedText (s : String) : Elem := setAttr (str "typeAttributes") (list [text (str "fixed")]) (text (str s))
example : ∃ e, (convertMember [] none .string enumMember).result = .ok (some e) ∧
    (convertMember [] none .string enumMember).warnings = [.duplicate] ∧
    attr e "enumerations" = some (list [fixedText "a", fixedText "b", fixedText "c"]) ∧
    attr e "samples" = some (list [wrapped (fixedText "c")]) ∧ attr e "default" = some (wrapped (fixedText "a")) ∧ e.has = false := by
  refine ⟨_, rfl, ?_, ?_, ?_, ?_, ?_⟩ <;> rfl
example : MemberIs [] .string enumMember .enum := .typed (.inl rfl)

end Verif.Props
