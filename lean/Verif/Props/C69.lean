import Verif.Props.C66_C68
import Verif.Props.C26_C27_C29
/-!
# C69: lists and objects
-/
namespace Verif.Props
open Verif Verif.Refract Verif.Registry Verif.Spec Verif.Spec.DataStructure Verif.DataStructure
open Verif.NamedTypes (BaseName TypeName)
open Verif.Mson (Value TypeDef TypeSpec ValueDef PropertyName)

theorem container_fill (t : BaseName) (ht : t = .array ∨ t = .object) (l : List Elem) : makeElement (container t l) = fill t l := by
  unfold container fill
  rcases ht with rfl | rfl
  · rfl
  · rw [if_pos rfl, if_pos rfl, C27_last_wins]; rfl

theorem infoToElement_fill (t : BaseName) (ht : t = .array ∨ t = .object) (i : Info) : infoToElement t i = fill t i.elements := by
  rw [← container_fill t ht]
  unfold infoToElement
  rcases ht with rfl | rfl <;> rfl

theorem container_not_primitive {t : BaseName} (ht : t = .array ∨ t = .object) : ¬ Primitive t := by
  rcases ht with rfl | rfl <;> rintro (h | h | h) <;> cases h

theorem entryE_container {t : BaseName} (ht : t = .array ∨ t = .object) (l : List Elem) : l.map (entryE t) = l := by
  have : entryE t = id := by
    funext e; unfold entryE; rw [if_neg]; rfl
    rcases ht with rfl | rfl <;> simp
  rw [this, List.map_id]

theorem lineInfo_items (t : BaseName) (ht : t = .array ∨ t = .object) (v : ValueDef) (m : SourceMap) :
    List.Forall₂ (Item (itemType v.type.spec.nested)) v.values (lineInfo t v m).elements := by
  have hp : isPrimitive t = false := by rcases ht with rfl | rfl <;> rfl
  have he : t ≠ .enum := by rcases ht with rfl | rfl <;> simp
  unfold lineInfo
  rw [hp]
  simp only [Bool.false_eq_true, if_false, he]
  rw [nestedType_eq]
  induction v.values with
  | nil => exact .nil
  | cons x l ih => exact .cons (create_item _ (itemType_primitive _) x) ih

theorem sectionInfo_contents (r : Reg) (t nested : BaseName) (ht : t = .array ∨ t = .object) (ss : List Section) (is : List Info)
    (h : List.Forall₂ (SectionInfo r t nested) ss is) : List.Forall₂ (Contents r nested) ss (is.map (·.elements)) := by
  induction h with
  | nil => exact .nil
  | cons h1 _ ih =>
    obtain ⟨l, hl, he⟩ := h1
    refine .cons ?_ ih
    simp only [Contents]; rw [he, entryE_container ht]; exact hl

theorem data_container (t : BaseName) (ht : t = .array ∨ t = .object) (d : Parts) (e e' : Elem)
    (hs : attr e "samples" = none) (hd : attr e "default" = none) (hh : e.has = false) (he : (dataToElement t d e).result = .ok e') :
    (merged d.hints ++ merged d.inlines ++ merged d.values = [] → e'.has = false) ∧
    (merged d.hints ++ merged d.inlines ++ merged d.values ≠ [] → e'.has = true ∧ e'.data = (fill t (merged d.hints ++ merged d.inlines ++ merged d.values)).data) ∧
    attr e' "samples" = listed (d.samples.map fun i => fill t i.elements) ∧ attr e' "default" = d.defaults.getLast?.map fun i => fill t i.elements := by
  have hen : t ≠ .enum := by rcases ht with rfl | rfl <;> simp
  have hp : ¬ isPrimitive t = true := fun a => container_not_primitive ht ((isPrimitive_iff t).1 a)
  unfold dataToElement at he
  rw [W.warn_bind, if_neg hen, W.pure_bind, if_neg hp] at he
  simp only at he
  have k1 := keeps_saveSamples t d.samples (saveContainer t d e)
  have k2 := keeps_saveDefault t d.defaults _ e' he
  have hattr : (saveContainer t d e).attributes = e.attributes := by
    unfold saveContainer; simp only; split
    · rfl
    · rw [attributes_setData]
  have hf : (fun i => fill t i.elements) = infoToElement t := by funext i; rw [infoToElement_fill t ht]
  rw [k2.has, k1.has, k2.data, k1.data, hf]
  refine ⟨?_, ?_, ?_, ?_⟩
  · intro hn; unfold saveContainer; simp only; rw [if_pos (.inl (by rw [hn]; rfl))]; exact hh
  · intro hn
    have hc : ¬ ((merged d.hints ++ merged d.inlines ++ merged d.values).isEmpty = true ∨ e.has = true) := by
      rw [hh]; simpa [List.isEmpty_iff] using hn
    unfold saveContainer
    simp only
    rw [if_neg hc, has_setData, data_setData]
    refine ⟨rfl, ?_⟩
    rw [← container_fill t ht]; rfl
  · rw [attr, k2.attributes _ (by decide)]
    exact saveSamples_find t hen _ _ (by rw [attr, hattr]; exact hs)
  · refine saveDefault_find t hen _ _ _ ?_ he
    rw [attr, k1.attributes _ (by decide), hattr]; exact hd

theorem lineInfos_elements (t : BaseName) (ht : t = .array ∨ t = .object) (v : ValueDef) (m : SourceMap) (u : Use) :
    List.Forall₂ (Item (itemType v.type.spec.nested)) (lineValues t v u) (merged (lineInfos t v m u)) := by
  unfold lineValues lineInfos merged
  split
  · simpa using lineInfo_items t ht v m
  · exact .nil

theorem lineInfos_lists (t : BaseName) (v : ValueDef) (m : SourceMap) (u : Use) :
    (lineInfos t v m u).map (·.elements) = if useOf t v = u then [(lineInfo t v m).elements] else [] := by
  unfold lineInfos; split <;> rfl

/-- C69: the content of a list is, in this order: what is between the brackets of its type, what is on its line, and what is in its
    sections of members; so is that of an object, except that of several members of the same name only the last one stays.  There is no
    content if all these are missing. -/
theorem C69_content (r : Reg) (name : Option (PropertyName × SourceMap)) (nested : BaseName) (m : Member) (e : Elem) (t : BaseName)
    (h : (convertMember r name nested m).result = .ok (some e)) (hm : MemberIs r nested m t) (ht : t = .array ∨ t = .object)
    (hpar : ∀ n ∈ m.definition.type.spec.nested, Parsed n) :
    ∃ v l, theValue e = some v ∧
      Content r m.definition.type.spec.nested (hintNames m.definition) (lineValues t m.definition .value) m.sections l ∧
      (l = [] → v.has = false) ∧ (l ≠ [] → v.has = true ∧ v.data = (fill t l).data) := by
  obtain ⟨t', v, v', d0, d, ht', hc, hv, k⟩ := member_any r name nested m e h
  obtain rfl := memberIs_unique hm ht'
  have np := container_not_primitive ht
  have hl := extractValue_ok r t _ _ _ _ d0 hc.line
  have hs := sections_complex r t _ np m.sections d0 d hc.sections
  have hd := data_container t ht d _ v (baseE_attr t m _ (by decide)) (baseE_attr t m _ (by decide)) (baseE_kind t m).2.1 hc.data
  obtain ⟨ls, hls, hlm⟩ := hl.2.2.2.2.2.2 np
  obtain ⟨vs, hvs, hvm⟩ := hs.values
  refine ⟨v', merged d.hints ++ merged d.inlines ++ merged d.values, hv, ⟨ls.flatten, merged d.inlines, vs.map (·.elements), ?_, ?_, ?_, ?_⟩, ?_, ?_⟩
  · refine hints_ok r _ ?_ ls hls
    intro n hn
    unfold hintNames at hn
    split at hn
    · exact hpar n hn
    · simp at hn
  · rw [hs.inlines, hl.1]; exact lineInfos_elements t ht _ _ _
  · exact sectionInfo_contents r t _ ht _ _ hvs
  · rw [hs.hints, hlm, hvm, hl.2.2.2.1, List.nil_append]; simp [merged, List.flatMap_def]
  · intro hn; rw [k.has]; exact hd.1 hn
  · intro hn; rw [k.has, k.data]; exact hd.2.1 hn

/-- C69: its samples are the list on its line, if that is a sample, and the lists of its sections of samples. -/
theorem C69_samples (r : Reg) (name : Option (PropertyName × SourceMap)) (nested : BaseName) (m : Member) (e : Elem) (t : BaseName)
    (h : (convertMember r name nested m).result = .ok (some e)) (hm : MemberIs r nested m t) (ht : t = .array ∨ t = .object) :
    ∃ v ls, theValue e = some v ∧ Lists r m.definition.type.spec.nested t m.definition .sample (filled .sample m.sections) ls ∧
      attr v "samples" = listed (ls.map (fill t)) := by
  obtain ⟨t', v, v', d0, d, ht', hc, hv, k⟩ := member_any r name nested m e h
  obtain rfl := memberIs_unique hm ht'
  have np := container_not_primitive ht
  have hl := extractValue_ok r t _ _ _ _ d0 hc.line
  have hs := sections_complex r t _ np m.sections d0 d hc.sections
  have hd := data_container t ht d _ v (baseE_attr t m _ (by decide)) (baseE_attr t m _ (by decide)) (baseE_kind t m).2.1 hc.data
  obtain ⟨ms, hms, hmm⟩ := hs.samples
  refine ⟨v', d.samples.map (·.elements), hv, ⟨(lineInfo t m.definition m.definitionMap).elements, ms.map (·.elements), ?_, ?_, ?_⟩, ?_⟩
  · exact lineInfo_items t ht _ _
  · exact sectionInfo_contents r t _ ht _ _ hms
  · rw [hmm, hl.2.1, List.map_append, lineInfos_lists]
  · rw [attr, k.attributes _ (by decide)]
    rw [List.map_map]; exact hd.2.2.1

/-- C69: its default is the last one of such lists. -/
theorem C69_default (r : Reg) (name : Option (PropertyName × SourceMap)) (nested : BaseName) (m : Member) (e : Elem) (t : BaseName)
    (h : (convertMember r name nested m).result = .ok (some e)) (hm : MemberIs r nested m t) (ht : t = .array ∨ t = .object) :
    ∃ v ls, theValue e = some v ∧ Lists r m.definition.type.spec.nested t m.definition .default (filled .default m.sections) ls ∧
      attr v "default" = ls.getLast?.map (fill t) := by
  obtain ⟨t', v, v', d0, d, ht', hc, hv, k⟩ := member_any r name nested m e h
  obtain rfl := memberIs_unique hm ht'
  have np := container_not_primitive ht
  have hl := extractValue_ok r t _ _ _ _ d0 hc.line
  have hs := sections_complex r t _ np m.sections d0 d hc.sections
  have hd := data_container t ht d _ v (baseE_attr t m _ (by decide)) (baseE_attr t m _ (by decide)) (baseE_kind t m).2.1 hc.data
  obtain ⟨ms, hms, hmm⟩ := hs.defaults
  refine ⟨v', d.defaults.map (·.elements), hv, ⟨(lineInfo t m.definition m.definitionMap).elements, ms.map (·.elements), ?_, ?_, ?_⟩, ?_⟩
  · exact lineInfo_items t ht _ _
  · exact sectionInfo_contents r t _ ht _ _ hms
  · rw [hmm, hl.2.2.1, List.map_append, lineInfos_lists]
  · rw [attr, k.attributes _ (by decide), List.getLast?_map, Option.map_map]
    exact hd.2.2.2

/-- C69: the same for a named type, which has no line. -/
theorem C69_named (r : Reg) (ds : NamedType) (e : Elem) (t : BaseName) (h : (msonToRefract r ds).result = .ok (some e)) (hn : NamedIs r ds t)
    (ht : t = .array ∨ t = .object) (hpar : ∀ n ∈ ds.type.spec.nested, Parsed n) :
    (∃ l, Content r ds.type.spec.nested ds.type.spec.nested [] ds.sections l ∧ (l = [] → e.has = false) ∧
      (l ≠ [] → e.has = true ∧ e.data = (fill t l).data)) ∧
    (∃ ls, List.Forall₂ (Contents r (itemType ds.type.spec.nested)) (filled .sample ds.sections) ls ∧ attr e "samples" = listed (ls.map (fill t))) ∧
    (∃ ls, List.Forall₂ (Contents r (itemType ds.type.spec.nested)) (filled .default ds.sections) ls ∧ attr e "default" = ls.getLast?.map (fill t)) := by
  rcases named_ok r ds _ h with ⟨_, _, _, ho⟩ | ⟨_, t', d0, d, e', ht', h0, h1, hd, ho, hw⟩
  · cases ho
  · cases ho
    have htt : t = t' := by
      rcases hn with hn | ⟨hn, rfl⟩ <;> rcases ht' with ht' | ⟨ht', rfl⟩
      · exact standsFor_unique hn ht'
      · exact absurd hn (ht' _)
      · exact absurd ht' (hn _)
      · rfl
    subst htt
    have np := container_not_primitive ht
    rcases addHints_ok r t ds.type {} d0 h0 with ⟨hp, _⟩ | ⟨_, hls, hh, rfl⟩
    · exact absurd hp np
    have hs := sections_complex r t _ np ds.sections _ d h1
    have na : ∀ k, k ≠ str "sourceMap" → k ≠ str "typeAttributes" → Infos.find (namedE t ds d.descriptions).attributes k = none := by
      intro k hk hk'
      rw [(namedE_keeps t ds _).attributes _ (by simp [hk, hk'])]
      unfold setType; split <;> cases t <;> rfl
    have hhas : (namedE t ds d.descriptions).has = false := by
      rw [(namedE_keeps t ds _).has]; unfold setType; split <;> cases t <;> rfl
    have key := data_container t ht d _ e (na _ (by decide) (by decide)) (na _ (by decide) (by decide)) hhas hd
    obtain ⟨vs, hvs, hvm⟩ := hs.values
    obtain ⟨ms, hms, hmm⟩ := hs.samples
    obtain ⟨ms', hms', hmm'⟩ := hs.defaults
    refine ⟨⟨merged d.hints ++ merged d.inlines ++ merged d.values, ⟨hls.flatten, [], vs.map (·.elements), ?_, .nil, ?_, ?_⟩, key.1, key.2.1⟩,
      ⟨ms.map (·.elements), sectionInfo_contents r t _ ht _ _ hms, ?_⟩, ⟨ms'.map (·.elements), sectionInfo_contents r t _ ht _ _ hms', ?_⟩⟩
    · exact hints_ok r _ hpar hls hh
    · exact sectionInfo_contents r t _ ht _ _ hvs
    · rw [hs.hints, hs.inlines, hvm]; simp [merged, List.flatMap_def]
    · rw [key.2.2.1, hmm, List.map_map]; rfl
    · rw [key.2.2.2, hmm', List.getLast?_map, Option.map_map]; rfl

/-- `- 1, 2 (array[number])` with the section `Sample: 3` of one member. -/
example : ∃ e, (convertMember [] none .string (.mk [] ⟨[⟨str "1", false⟩, ⟨str "2", false⟩], ⟨.value, ⟨⟨some .array, [], false⟩, [⟨some .number, [], false⟩]⟩, 0⟩⟩
      [.mk .sample [] [] [.value (.mk [] ⟨[⟨str "3", false⟩], {}⟩ [] [] [] [])] [] []] [] [] [])).result = .ok (some e) ∧
    e.data = .array [.mk (str "number") [] [] true (.number (str "1")), .mk (str "number") [] [] true (.number (str "2"))] ∧
    attr e "samples" = some (list [list [.mk (str "number") [] [] true (.number (str "3"))]]) := by
  refine ⟨_, rfl, ?_, ?_⟩ <;> rfl

end Verif.Props
