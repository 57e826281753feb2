import Verif.Spec.DataStructureFit
import Verif.Props.C71_C72
import Verif.Props.C23_C25
/-!
# C73: the conversion of MSON always ends with a result
-/
namespace Verif.Props
open Verif Verif.Refract Verif.Registry Verif.Spec Verif.Spec.DataStructure Verif.DataStructure
open Verif.NamedTypes (BaseName TypeName)
open Verif.Mson (Value TypeDef TypeSpec ValueDef PropertyName)

/-! ## Results -/

/-- There is a result. -/
def Ends {α : Type} (x : W α) : Prop := ∃ a, x.result = .ok a

theorem Ends.bind {α β : Type} {x : W α} {f : α → W β} (hx : Ends x) (hf : ∀ a, x.result = .ok a → Ends (f a)) : Ends (x.bind f) := by
  obtain ⟨a, ha⟩ := hx
  obtain ⟨b, hb⟩ := hf a ha
  exact ⟨b, (W.bind_ok _ _ _).2 ⟨a, ha, hb⟩⟩
theorem ends_pure {α : Type} (a : α) : Ends (W.pure a) := ⟨a, rfl⟩
theorem ends_warn (ws : List Warning) : Ends (W.warn ws) := ⟨(), rfl⟩
theorem ends_each {α β : Type} (f : α → W β) : ∀ l : List α, (∀ a ∈ l, Ends (f a)) → Ends (W.each f l)
  | [], _ => ends_pure _
  | a :: r, h => (h a (by simp)).bind fun _ _ => (ends_each f r fun b hb => h b (by simp [hb])).bind fun _ _ => ends_pure _
theorem ends_defined {α : Type} (o : Option α) (h : o ≠ none) : Ends (W.defined o) := by
  cases o with
  | none => exact absurd rfl h
  | some a => exact ⟨a, rfl⟩

section
variable (r : Reg) (hac : Acyclic (ParentStep r))
include hac

theorem ends_root (k : Bytes) : Ends (W.ends (rootFrom r k)) := by
  obtain ⟨res, h, _⟩ := C25_root_partial r hac k
  exact ⟨res, (W.ends_ok _ _).2 h⟩

theorem ends_typeOfName (k : Bytes) : Ends (typeOfName r k) := (ends_root r hac k).bind fun _ _ => ends_pure _

theorem ends_resolveType (s : TypeSpec) : Ends (DataStructure.resolveType r s) := by
  unfold DataStructure.resolveType
  split
  · exact ends_pure _
  · split
    · exact ends_pure _
    · exact ends_typeOfName r hac _

theorem ends_hintOf (n : TypeName) : Ends (hintOf r n) := by
  unfold hintOf
  split
  · refine (ends_typeOfName r hac _).bind fun t _ => ?_
    split
    · exact (ends_warn _).bind fun _ _ => ends_pure _
    · exact ends_pure _
  · exact ends_pure _

theorem ends_addHints (t : BaseName) (ty : TypeDef) (d : Parts) : Ends (addHints r t ty d) := by
  unfold addHints
  split
  · exact ends_pure _
  · exact (ends_each _ _ fun n _ => ends_hintOf r hac n).bind fun _ _ => ends_pure _

theorem ends_extractValue (t : BaseName) (de : Bytes) (v : ValueDef) (dm cm : SourceMap)
    (h1 : Primitive t → Lined v → v.values.length ≤ 1) : Ends (extractValue r t de v dm cm) := by
  unfold extractValue
  split
  · exact ends_pure _
  · rename_i hl
    have hl : Lined v := by unfold Lined; tauto
    refine Ends.bind ?_ fun d _ => ?_
    · unfold addValues
      split
      · exact (ends_warn _).bind fun _ _ => ends_pure _
      · refine Ends.bind ?_ fun i _ => ?_
        · unfold fetchValues
          split
          · rename_i hp
            have := h1 ((isPrimitive_iff t).1 hp) hl
            rw [if_neg (by omega)]
            exact ends_pure _
          · exact ends_pure _
        · split
          · exact ends_pure _
          · split
            · exact ends_pure _
            · exact ends_pure _
    · dsimp only
      split
      · exact ends_addHints r hac _ _ _
      · exact ends_pure _

theorem ends_propertyKey (n : PropertyName) (nm : SourceMap) (h : FitKey r n) : Ends (propertyKey r n nm) := by
  unfold propertyKey
  refine Ends.bind ?_ fun _ _ => ends_pure _
  split
  · exact ends_pure _
  · refine (ends_warn _).bind fun _ _ => ?_
    refine Ends.bind ?_ fun _ _ => ends_pure _
    split
    · exact ends_pure _
    · rename_i ht
      rcases h with ⟨h1, h2, h3⟩ | h | ⟨p, hp, ⟨s, hs⟩⟩
      · exfalso; apply ht; unfold typeEmpty nameEmpty; rw [h1, h2, h3]; rfl
      · refine Ends.bind ⟨true, by unfold variableIsString; rw [if_pos h]; rfl⟩ fun b hb => ?_
        unfold variableIsString at hb
        rw [if_pos h] at hb
        cases hb
        exact ends_pure _
      · have he := rootFrom_of_rootOf r _ p hp
        have hv : (variableIsString r n.isVariable).result = .ok true := by
          unfold variableIsString
          split
          · rfl
          · rw [he]
            simp [W.ends, W.pure_bind, Elem.kind, hs, Data.kind]
        refine Ends.bind ⟨true, hv⟩ fun b hb => ?_
        rw [hv] at hb
        cases hb
        exact ends_pure _
end

/-! ## Elements of one name are of one type -/

/-- The name of an element tells its type. -/
def Coherent (r : Reg) (e : Elem) : Prop :=
  e.name = e.kind.name ∧ e.kind ≠ .holder ∨ (e.name = str "generic" ∧ e.kind = .string) ∨ ∃ p t, RootOf r e.name p ∧ Is t p ∧ Is t e

theorem kindName_inj (a b : Kind) (h : a.name = b.name) : a = b := by
  revert h; cases a <;> cases b <;> decide
theorem kindName_reserved (a : Kind) (h : a ≠ .holder) : reserved a.name := by
  cases a <;> first | exact absurd rfl h | (unfold reserved; decide +kernel)
theorem kindName_generic (a : Kind) : a.name ≠ str "generic" := by cases a <;> decide

theorem standard_root (r : Reg) (hr : Standard r) (k : Bytes) (p : Elem) (h : RootOf r k p) (hk : reserved k) : p.kind.name = k := by
  cases h with
  | here _ _ hp _ => exact (hr k p hp hk).2
  | up _ k' _ hs _ =>
    obtain ⟨hne, _, _, q, hq, hn⟩ := hs
    have := (hr k q hq hk).1
    exact absurd (hn.symm.trans this) hne

theorem coherent_kind (r : Reg) (hr : Standard r) (a b : Elem) (ha : Coherent r a) (hb : Coherent r b) (h : a.name = b.name) : a.kind = b.kind := by
  have key : ∀ a b : Elem, a.name = a.kind.name ∧ a.kind ≠ .holder → (∃ p t, RootOf r b.name p ∧ Is t p ∧ Is t b) → a.name = b.name → a.kind = b.kind := by
    rintro a b ⟨h1, h2⟩ ⟨p, t, hp, ht, hb⟩ h
    have := standard_root r hr _ p hp (by rw [← h, h1]; exact kindName_reserved _ h2)
    rw [← h, h1] at this
    have := kindName_inj _ _ this
    rw [← this, kind_of_is p t ht, kind_of_is b t hb]
  have key2 : ∀ a b : Elem, a.name = str "generic" → (∃ p t, RootOf r b.name p ∧ Is t p ∧ Is t b) → a.name ≠ b.name := by
    rintro a b ha ⟨p, t, hp, ht, hb⟩ h
    have := standard_root r hr _ p hp (by rw [← h, ha]; unfold reserved; decide +kernel)
    rw [← h, ha] at this
    exact kindName_generic _ this
  rcases ha with ha | ha | ha <;> rcases hb with hb | hb | hb
  · exact kindName_inj _ _ (by rw [← ha.1, ← hb.1, h])
  · exact absurd (by rw [← ha.1, h, hb.1]) (kindName_generic a.kind)
  · exact key a b ha hb h
  · exact absurd (by rw [← hb.1, ← h, ha.1]) (kindName_generic b.kind)
  · rw [ha.2, hb.2]
  · exact absurd h (key2 a b ha.1 hb)
  · exact (key b a hb ha h.symm).symm
  · exact absurd h.symm (key2 b a hb.1 ha)
  · obtain ⟨p, t, hp, ht, ha⟩ := ha
    obtain ⟨q, u, hq, hu, hb⟩ := hb
    rw [h] at hp
    have := C25_root_unique r _ p q hp hq
    subst this
    rw [kind_of_is a t ha, kind_of_is b u hb, ← kind_of_is p t ht, kind_of_is p u hu]

/-- Changes outside keep it. -/
theorem Coherent.keeps {r : Reg} {ks ms : List Bytes} {e e' : Elem} (h : Coherent r e) (k : Keeps ks ms e e') : Coherent r e' := by
  unfold Coherent
  rw [k.name, k.kind]
  rcases h with h | h | ⟨p, t, hp, ht, he⟩
  · exact .inl h
  · exact .inr (.inl h)
  · exact .inr (.inr ⟨p, t, hp, ht, is_of_kind _ _ (by rw [k.kind]; exact kind_of_is e t he)⟩)

theorem keeps_setFixed (e : Elem) : Keeps [str "typeAttributes"] [] e (setFixed e) := by
  unfold setFixed
  split
  · exact keeps_setAttr _ _ _
  · split
    · split
      · exact .refl _ _ _
      · exact keeps_setAttr _ _ _
    · exact .refl _ _ _
theorem keeps_entryE (t : BaseName) (e : Elem) : Keeps [str "typeAttributes"] [] e (entryE t e) := by
  unfold entryE
  split
  · split
    · exact keeps_setFixed e
    · exact .refl _ _ _
  · exact .refl _ _ _

theorem emptyOf_coherent (r : Reg) (t : BaseName) : Coherent r (emptyOf t) := .inl (by cases t <;> exact ⟨rfl, nofun⟩)

theorem entry_coherent (r : Reg) (t : BaseName) (s : Bytes) (e : Elem) (h : Entry t s e) : Coherent r e := by
  cases h with
  | bad _ => exact emptyOf_coherent r t
  | good h => cases h <;> exact .inl ⟨rfl, nofun⟩

theorem hint_coherent (r : Reg) (n : TypeName) (l : List Elem) (h : Hint r n l) : ∀ x ∈ l, Coherent r x := by
  intro x hx
  cases h with
  | basic => simp only [List.mem_singleton] at hx; subst hx; exact emptyOf_coherent r _
  | nothing => simp only [List.mem_singleton] at hx; subst hx; exact emptyOf_coherent r _
  | @named t hb hl hv hs =>
    simp only [List.mem_singleton] at hx; subst hx
    rcases hs with hs | ⟨_, _, p, hp, ht⟩
    · rw [hb] at hs; cases hs
    · refine .inr (.inr ⟨p, t, ?_, ht, ?_⟩)
      · cases t <;> exact hp
      · cases t <;> exact ⟨_, rfl⟩
  | undefined => simp at hx
  | @sample t d => simp only [List.mem_singleton] at hx; subst hx; exact .inl (by cases t <;> exact ⟨rfl, nofun⟩)
  | @badSample t => simp only [List.mem_singleton] at hx; subst hx; exact .inl (by cases t <;> exact ⟨rfl, nofun⟩)
  | generic => simp only [List.mem_singleton] at hx; subst hx; exact .inr (.inl ⟨rfl, rfl⟩)

theorem member_coherent (r : Reg) (name : Option (PropertyName × SourceMap)) (nested : BaseName) (m : Member) (e : Elem)
    (h : (convertMember r name nested m).result = .ok (some e)) (hk : name = none → Known r m.definition.type.spec.name) : Coherent r e := by
  cases name with
  | some p =>
    obtain ⟨n, nm⟩ := p
    obtain ⟨key, _, hh⟩ := member_property r n nm nested m _ h
    rcases hh with ⟨_, ho, _⟩ | ⟨_, t, v, d0, d, ht, hc, ho, _⟩
    · cases ho
    · cases ho
      refine Coherent.keeps (Coherent.keeps (.inl ?_) (keeps_setTypeAttributes _ _)) (keeps_setDescription _ _)
      unfold memberE
      split <;> exact ⟨rfl, nofun⟩
  | none =>
    obtain ⟨t, v, d0, d, ht, hc, ho, _⟩ := member_value r nested m _ h
    cases ho
    have hd := data_kind t d _ v hc.data (baseE_kind t m).1
    refine Coherent.keeps (Coherent.keeps ?_ (keeps_setTypeAttributes _ _)) (keeps_setDescription _ _)
    have hn := hd.2.1
    rw [(baseE_kind t m).2.2.2.2] at hn
    obtain ⟨hpar, hst⟩ := hk rfl
    by_cases hl : m.definition.type.spec.name.literal = []
    · rw [if_pos hl] at hn
      refine .inl ⟨by rw [hn, hd.1, kind_name], by rw [hd.1]; cases t <;> decide⟩
    · rw [if_neg hl] at hn
      obtain ⟨u, hu⟩ := hst hl
      have : t = u := memberIs_unique ht (.typed hu)
      subst this
      rcases hu with hu | ⟨_, _, p, hp, hpt⟩
      · rcases hpar with hpar | hpar
        · rw [hu] at hpar; cases hpar
        · exact absurd hpar hl
      · exact .inr (.inr ⟨p, t, by rw [hn]; exact hp, hpt, is_of_kind v t hd.1⟩)

theorem element_coherent (r : Reg) (nested : BaseName) (e : Element) (x : Elem) (h : (convertElement r nested e).result = .ok (some x))
    (hf : FitEntry r e) : Coherent r x := by
  cases e with
  | empty => simp [convertElement] at h
  | property n nm m => simp only [convertElement] at h; exact member_coherent r _ nested m x h (fun a => by cases a)
  | value m => simp only [convertElement] at h; exact member_coherent r _ nested m x h (fun _ => hf)
  | mixin t => simp only [convertElement] at h; cases h; exact .inl ⟨rfl, nofun⟩
  | oneOf es =>
    simp only [convertElement, W.bind_ok, W.pure_result, Except.ok.injEq, Option.some.injEq] at h
    obtain ⟨l, _, rfl⟩ := h
    unfold selectE
    split <;> exact .inl ⟨rfl, nofun⟩
  | group es => simp [convertElement] at h

theorem elements_coherent (r : Reg) (nested : BaseName) (es : List Element) (l : List Elem) (h : (convertElements r nested es).result = .ok l)
    (hf : ∀ e ∈ es, FitEntry r e) : ∀ x ∈ l, Coherent r x := by
  induction es generalizing l with
  | nil => simp only [convertElements] at h; cases h; simp
  | cons e es ih =>
    simp only [convertElements, W.bind_ok, W.pure_result, Except.ok.injEq] at h
    obtain ⟨o, ho, l', hl, rfl⟩ := h
    intro x hx
    rcases List.mem_append.1 hx with hx | hx
    · have : o = some x := by simpa using hx
      subst this
      exact element_coherent r nested e x ho (hf e (by simp))
    · exact ih l' hl (fun e he => hf e (by simp [he])) x hx

theorem sectionInfo_coherent (r : Reg) (nested : BaseName) (ss : List Section) (is : List Info)
    (h : List.Forall₂ (SectionInfo r .enum nested) ss is) (hf : ∀ s ∈ ss, ∀ e ∈ s.elements, FitEntry r e) : ∀ x ∈ merged is, Coherent r x := by
  induction h with
  | nil => simp [merged]
  | @cons s i ss' is' h1 _ ih =>
    obtain ⟨l, hl, he⟩ := h1
    intro x hx
    have : merged (i :: is') = i.elements ++ merged is' := rfl
    rw [this] at hx
    rcases List.mem_append.1 hx with hx | hx
    · rw [he] at hx
      obtain ⟨y, hy, rfl⟩ := List.mem_map.1 hx
      exact (elements_coherent r nested _ l hl (hf s (by simp)) y hy).keeps (keeps_entryE _ _)
    · exact ih (fun s hs => hf s (by simp [hs])) x hx

/-- Everything that is written of an enumeration. -/
def PartsCoherent (r : Reg) (d : Parts) : Prop :=
  ∀ l ∈ [d.inlines, d.values, d.defaults, d.samples, d.hints], ∀ x ∈ merged l, Coherent r x

theorem lineInfo_coherent (r : Reg) (v : ValueDef) (m : SourceMap) : ∀ x ∈ (lineInfo .enum v m).elements, Coherent r x := by
  intro x hx
  have hp : Primitive (itemType v.type.spec.nested) := by unfold itemType; split <;> (try split) <;> simp [Primitive]
  unfold lineInfo at hx
  simp only [isPrimitive, Bool.false_eq_true, if_false, if_true, List.mem_map] at hx
  obtain ⟨y, _, rfl⟩ := hx
  have hc : Coherent r (create (some (nestedType v.type.spec.nested)) y.literal .value) := by
    rw [nestedType_eq]
    by_cases hy : y.literal = []
    · have : create (some (itemType v.type.spec.nested)) y.literal .value = emptyOf (itemType v.type.spec.nested) := by
        simp [create, (isPrimitive_iff _).2 hp, hy, makeEmpty_eq]
      rw [this]; exact emptyOf_coherent r _
    · exact entry_coherent r _ _ _ (create_value _ hp _ hy)
  split
  · exact hc.keeps (keeps_setFixed _)
  · exact hc

theorem lineInfos_coherent (r : Reg) (v : ValueDef) (m : SourceMap) (u : Use) : ∀ x ∈ merged (lineInfos .enum v m u), Coherent r x := by
  intro x hx
  unfold lineInfos at hx
  split at hx
  · simp only [merged, List.flatMap_cons, List.flatMap_nil, List.append_nil] at hx
    exact lineInfo_coherent r v m x hx
  · simp [merged] at hx

theorem each_coherent (r : Reg) (ns : List TypeName) (hp : ∀ n ∈ ns, Parsed n) (ls : List (List Elem))
    (h : (W.each (hintOf r) ns).result = .ok ls) : ∀ x ∈ ls.flatten, Coherent r x := by
  have := hints_ok r ns hp ls h
  obtain ⟨ls', h', he⟩ := this
  rw [he]
  clear he h
  intro x hx
  induction h' with
  | nil => simp at hx
  | cons h1 _ ih =>
    rw [List.flatten_cons] at hx
    rcases List.mem_append.1 hx with hx | hx
    · exact hint_coherent r _ _ h1 x hx
    · exact ih (fun n hn => hp n (by simp [hn])) hx

theorem sections_coherent (r : Reg) (nested : BaseName) (ss : List Section) (d d' : Parts) (hd : PartsCoherent r d)
    (hf : ∀ s ∈ ss, ∀ e ∈ s.elements, FitEntry r e) (h : (convertSections r .enum nested ss d).result = .ok d') : PartsCoherent r d' := by
  have hs := sections_complex r .enum nested enum_not_primitive ss d d' h
  obtain ⟨a, ha, ha'⟩ := hs.samples
  obtain ⟨b, hb, hb'⟩ := hs.defaults
  obtain ⟨c, hc, hc'⟩ := hs.values
  have sub : ∀ k, ∀ s ∈ filled k ss, ∀ e ∈ s.elements, FitEntry r e := fun k s hs => hf s (List.mem_filter.1 hs).1
  have sub' : ∀ s ∈ ss.filter (fun s => s.klass = .members), ∀ e ∈ s.elements, FitEntry r e := fun s hs => hf s (List.mem_filter.1 hs).1
  unfold PartsCoherent
  rw [hs.inlines, hs.hints, ha', hb', hc']
  simp only [List.mem_cons, List.not_mem_nil, or_false, forall_eq_or_imp, forall_eq, merged_append, List.mem_append]
  simp only [PartsCoherent, List.mem_cons, List.not_mem_nil, or_false, forall_eq_or_imp, forall_eq] at hd
  refine ⟨hd.1, ?_, ?_, ?_, hd.2.2.2.2⟩
  · rintro x (hx | hx)
    · exact hd.2.1 x hx
    · exact sectionInfo_coherent r nested _ c hc sub' x hx
  · rintro x (hx | hx)
    · exact hd.2.2.1 x hx
    · exact sectionInfo_coherent r nested _ b hb (sub _) x hx
  · rintro x (hx | hx)
    · exact hd.2.2.2.1 x hx
    · exact sectionInfo_coherent r nested _ a ha (sub _) x hx

/-! ## Enumerations -/

theorem ends_find (r : Reg) (hr : Standard r) (f : Elem → Option Bool) (l : List Elem) (h : ∀ y ∈ l, f y ≠ none) : findAlike f l ≠ none := by
  induction l with
  | nil => simp [findAlike]
  | cons y l ih =>
    rw [findAlike]
    cases hy : f y with
    | none => exact absurd hy (h y (by simp))
    | some b => cases b
                · exact ih fun z hz => h z (by simp [hz])
                · simp

theorem alike_defined (r : Reg) (hr : Standard r) (a b : Elem) (sa : Sound a) (sb : Sound b) (ha : Coherent r a) (hb : Coherent r b) :
    alike a b ≠ none := by
  intro h
  obtain ⟨ho, _, hk⟩ := (alike_iff a b sa sb).2.1 h
  exact hk (coherent_kind r hr a b ha hb ho.name)

theorem ends_addEnumerations (r : Reg) (hr : Standard r) (b : Bool) : ∀ l there : List Elem, (∀ x ∈ l, Sound x ∧ Coherent r x) →
    (∀ x ∈ there, Sound x ∧ Coherent r x) → Ends (addEnumerations b l there)
  | [], there, _, _ => by rw [addEnumerations]; exact ends_pure _
  | x :: l, there, hl, ht => by
    rw [addEnumerations]
    have hx := hl x (by simp)
    refine (ends_defined _ (ends_find r hr _ _ fun y hy => alike_defined r hr x y hx.1 (ht y hy).1 hx.2 (ht y hy).2)).bind fun f _ => ?_
    split
    · exact (ends_warn _).bind fun _ _ => ends_addEnumerations r hr b l there (fun y hy => hl y (by simp [hy])) ht
    · refine ends_addEnumerations r hr b l _ (fun y hy => hl y (by simp [hy])) fun y hy => ?_
      rcases List.mem_append.1 hy with hy | hy
      · exact ht y hy
      · simp only [List.mem_singleton] at hy; subst hy; exact hx

theorem ends_withoutValues (r : Reg) (hr : Standard r) (vs : List Elem) (hv : ∀ x ∈ vs, Sound x ∧ Coherent r x) : ∀ l : List Elem,
    (∀ x ∈ l, Sound x ∧ Coherent r x) → Ends (withoutValues vs l)
  | [], _ => by rw [withoutValues]; exact ends_pure _
  | x :: l, hl => by
    rw [withoutValues]
    have hx := hl x (by simp)
    exact (ends_defined _ (ends_find r hr _ _ fun y hy => alike_defined r hr y x (hv y hy).1 hx.1 (hv y hy).2 hx.2)).bind fun f _ =>
      (ends_withoutValues r hr vs hv l fun y hy => hl y (by simp [hy])).bind fun _ _ => ends_pure _

theorem ends_saveEnum (r : Reg) (hr : Standard r) (d : Parts) (e : Elem) (hs : PartsSound d) (hc : PartsCoherent r d) : Ends (saveEnum d e) := by
  have both : ∀ l ∈ [d.inlines, d.values, d.defaults, d.samples, d.hints], ∀ x ∈ merged l, Sound x ∧ Coherent r x := by
    obtain ⟨s1, s2, s3, s4, s5⟩ := hs
    intro l hl x hx
    refine ⟨?_, hc l hl x hx⟩
    simp only [List.mem_cons, List.not_mem_nil, or_false] at hl
    rcases hl with rfl | rfl | rfl | rfl | rfl
    · exact s1 x hx
    · exact s2 x hx
    · exact s3 x hx
    · exact s4 x hx
    · exact s5 x hx
  have hi := both d.inlines (by simp)
  have hv := both d.values (by simp)
  have hd := both d.defaults (by simp)
  have hsm := both d.samples (by simp)
  have hh := both d.hints (by simp)
  unfold saveEnum
  dsimp only
  rw [map_cloneAll, map_cloneAll]
  have mem : ∀ (b : Bool) (l es es' : List Elem), (∀ x ∈ l, Sound x ∧ Coherent r x) → (∀ x ∈ es, Sound x ∧ Coherent r x) →
      (addEnumerations b l es).result = .ok es' → ∀ x ∈ es', Sound x ∧ Coherent r x := by
    intro b l es es' h1 h2 h x hx
    rcases addEnumerations_mem b l es es' h x hx with hx | hx
    · exact h2 x hx
    · exact h1 x hx
  refine (ends_withoutValues r hr _ hv _ hi).bind fun l0 h0 => ?_
  have hl0 : ∀ x ∈ l0, Sound x ∧ Coherent r x := fun x hx => hi x (withoutValues_mem _ _ _ h0 x hx)
  refine (ends_addEnumerations r hr _ _ _ hl0 (by simp)).bind fun l1 h1 => ?_
  have hl1 := mem _ _ _ _ hl0 (by simp) h1
  refine (ends_addEnumerations r hr _ _ _ hv hl1).bind fun l2 h2 => ?_
  have hl2 := mem _ _ _ _ hv hl1 h2
  refine (ends_addEnumerations r hr _ _ _ hsm hl2).bind fun l3 h3 => ?_
  have hl3 := mem _ _ _ _ hsm hl2 h3
  refine (ends_addEnumerations r hr _ _ _ hd hl3).bind fun l4 h4 => ?_
  have hl4 := mem _ _ _ _ hd hl3 h4
  refine (ends_addEnumerations r hr _ _ _ hh hl4).bind fun l5 h5 => ?_
  have hl5 := mem _ _ _ _ hh hl4 h5
  split
  · exact ends_pure _
  · refine (ends_each _ _ fun x hx => ?_).bind fun _ _ => ends_pure _
    split
    · rw [appendFixed_sound x (hl5 x hx).1]; exact ⟨_, rfl⟩
    · exact ends_pure _

theorem ends_data (r : Reg) (hr : Standard r) (t : BaseName) (d : Parts) (e : Elem) (hs : PartsSound d) (hc : t = .enum → PartsCoherent r d) :
    Ends (dataToElement t d e) := by
  unfold dataToElement
  refine (ends_warn _).bind fun _ _ => ?_
  refine Ends.bind ?_ fun e _ => ?_
  · split
    · rename_i ht; exact ends_saveEnum r hr d e hs (hc ht)
    · exact ends_pure _
  · unfold saveDefault
    split
    · exact ends_pure _
    · split
      · exact (ends_warn _).bind fun _ _ => ends_pure _
      · exact ends_pure _

/-! ## Members -/

theorem empty_coherent (r : Reg) : PartsCoherent r {} := by simp [PartsCoherent, merged]

theorem line_coherent (r : Reg) (de : Bytes) (v : ValueDef) (dm cm : SourceMap) (d : Parts) (hp : ∀ n ∈ v.type.spec.nested, Parsed n)
    (h : (extractValue r .enum de v dm cm).result = .ok d) : PartsCoherent r d := by
  obtain ⟨h1, h2, h3, h4, _, _, h6⟩ := extractValue_ok r .enum de v dm cm d h
  obtain ⟨ls, hls, hm⟩ := h6 enum_not_primitive
  unfold PartsCoherent
  rw [h1, h2, h3, h4]
  simp only [List.mem_cons, List.not_mem_nil, or_false, forall_eq_or_imp, forall_eq]
  refine ⟨lineInfos_coherent r v dm _, by simp [merged], lineInfos_coherent r v dm _, lineInfos_coherent r v dm _, ?_⟩
  rw [hm]
  refine each_coherent r _ ?_ ls hls
  intro n hn
  unfold hintNames at hn
  split at hn
  · exact hp n hn
  · simp at hn

section
variable (r : Reg) (hac : Acyclic (ParentStep r)) (hr : Standard r)
include hac hr

theorem ends_value (nested t : BaseName) (m : Member) (ht : MemberIs r nested m t) (hf : FitMember r nested m)
    (hsec : ∀ d, Ends (convertSections r t (itemType m.definition.type.spec.nested) m.sections d)) :
    Ends (valueWith r t m.description m.definition m.map m.definitionMap m.descriptionMap (fun t nested d => convertSections r t nested m.sections d)) := by
  cases hf with
  | mk hk he h1 hen =>
  unfold valueWith
  refine (ends_extractValue r hac t _ _ _ _ (h1 t ht)).bind fun d0 h0 => ?_
  rw [nestedType_eq]
  refine (hsec d0).bind fun d hd => ?_
  refine Ends.bind (ends_data r hr t d _ (convertSections_sound r _ _ _ _ _ (extractValue_sound r _ _ _ _ _ _ h0) hd) ?_) fun _ _ => ends_pure _
  rintro rfl
  obtain ⟨hp, hf⟩ := hen ht
  exact sections_coherent r _ _ _ _ (line_coherent r _ _ _ _ _ hp h0) hf hd

mutual
theorem ends_sections (t n : BaseName) : (ss : List Section) → (∀ s ∈ ss, s.klass ≠ .undefined) → (∀ s ∈ ss, ∀ e ∈ s.elements, FitElement r n e) →
    ∀ d, Ends (convertSections r t n ss d)
  | [], _, _, d => by simp only [convertSections]; exact ends_pure _
  | s :: rest, hk, he, d => by
    simp only [convertSections]
    exact (ends_section t n s (hk s (by simp)) (he s (by simp)) d).bind fun d' _ =>
      ends_sections t n rest (fun s hs => hk s (by simp [hs])) (fun s hs => he s (by simp [hs])) d'
termination_by structural ss => ss
theorem ends_section (t n : BaseName) : (s : Section) → s.klass ≠ .undefined → (∀ e ∈ s.elements, FitElement r n e) → ∀ d, Ends (convertSection r t n s d)
  | .mk k de v es dm vm, hk, he, d => by
    simp only [convertSection]
    have hc := ends_elements n es he
    have hf : Ends (fetchSection t v vm (convertElements r n es)) := by
      unfold fetchSection
      split
      · exact ends_pure _
      · exact hc.bind fun _ _ => ends_pure _
    unfold addSection
    split
    · split
      · exact ends_pure _
      · exact hf.bind fun _ _ => ends_pure _
    · split
      · exact ends_pure _
      · exact hf.bind fun _ _ => ends_pure _
    · split
      · exact ends_pure _
      · exact hf.bind fun _ _ => ends_pure _
    · exact ends_pure _
    · exact absurd rfl hk
termination_by structural s => s
theorem ends_elements (n : BaseName) : (es : List Element) → (∀ e ∈ es, FitElement r n e) → Ends (convertElements r n es)
  | [], _ => by simp only [convertElements]; exact ends_pure _
  | e :: rest, h => by
    simp only [convertElements]
    exact (ends_element n e (h e (by simp))).bind fun _ _ => (ends_elements n rest fun e he => h e (by simp [he])).bind fun _ _ => ends_pure _
termination_by structural es => es
theorem ends_element (n : BaseName) : (e : Element) → FitElement r n e → Ends (convertElement r n e)
  | .empty, h => by cases h
  | .property name nm m, h => by
    cases h with
    | property hk hm => simp only [convertElement]; exact ends_member (some (name, nm)) n m (fun p hp => by cases hp; exact hk) hm
  | .value m, h => by
    cases h with
    | value hm => simp only [convertElement]; exact ends_member none n m (fun p hp => by cases hp) hm
  | .mixin t, _ => by simp only [convertElement]; exact ends_pure _
  | .oneOf es, h => by
    cases h with
    | oneOf h => simp only [convertElement]; exact (ends_options es h).bind fun _ _ => ends_pure _
  | .group _, h => by cases h
termination_by structural e => e
theorem ends_member (name : Option (PropertyName × SourceMap)) (n : BaseName) : (m : Member) → (∀ p, name = some p → FitKey r p.1) → FitMember r n m →
    Ends (convertMember r name n m)
  | .mk de v ss mp dm cm, hk, hm => by
    have hsec : ∀ t d, Ends (convertSections r t (itemType v.type.spec.nested) ss d) := by
      cases hm with
      | mk h1 h2 _ _ => exact fun t d => ends_sections t _ ss h1 h2 d
    simp only [convertMember]
    unfold memberWith
    refine (ends_resolveType r hac _).bind fun o ho => (ends_warn _).bind fun _ _ => ?_
    have ht := memberType_is r n (.mk de v ss mp dm cm) o ho
    have hv := ends_value r hac hr n _ _ ht hm (hsec _)
    cases name with
    | none => exact hv.bind fun _ _ => ends_pure _
    | some p =>
      obtain ⟨pn, nm⟩ := p
      refine (ends_propertyKey r hac pn nm (hk _ rfl)).bind fun _ _ => ?_
      split
      · exact hv.bind fun _ _ => ends_pure _
      · exact ends_pure _
termination_by structural m => m
theorem ends_options : (es : List Element) → (∀ e ∈ es, FitChoice r e) → Ends (convertOptions r es)
  | [], _ => by simp only [convertOptions]; exact ends_pure _
  | e :: rest, h => by
    simp only [convertOptions]
    exact (ends_option e (h e (by simp))).bind fun _ _ => (ends_options rest fun e he => h e (by simp [he])).bind fun _ _ => ends_pure _
termination_by structural es => es
theorem ends_option : (e : Element) → FitChoice r e → Ends (convertOption r e)
  | .empty, h => by cases h with | single h => cases h
  | .property name nm m, h => by
    cases h with
    | single h => cases h with
      | property hk hm =>
        simp only [convertOption]
        exact (ends_member (some (name, nm)) .string m (fun p hp => by cases hp; exact hk) hm).bind fun _ _ => ends_pure _
  | .value m, h => by
    cases h with
    | single h => cases h with
      | value hm => simp only [convertOption]; exact (ends_member none .string m (fun p hp => by cases hp) hm).bind fun _ _ => ends_pure _
  | .mixin t, _ => by simp only [convertOption]; exact ends_pure _
  | .oneOf es, h => by
    cases h with
    | single h => cases h with
      | oneOf h => simp only [convertOption]; exact (ends_options es h).bind fun _ _ => ends_pure _
  | .group es, h => by
    cases h with
    | single h => cases h
    | group h => simp only [convertOption]; exact (ends_elements .string es h).bind fun _ _ => ends_pure _
termination_by structural e => e
end

/-- C73: a named type that is fit is converted: no error is thrown, no null pointer is dereferenced and no search runs for ever. -/
theorem C73_named (ds : NamedType) (hf : FitNamed r ds) : ∃ o, (msonToRefract r ds).result = .ok o := by
  show Ends _
  unfold msonToRefract
  split
  · exact ends_pure _
  · refine (ends_resolveType r hac _).bind fun o ho => ?_
    have ht : NamedIs r ds (o.getD .object) := by
      cases o with
      | some t => exact .inl ((resolveType_ok r _ _ ho t).1 rfl)
      | none => exact .inr ⟨(resolveType_none r _ _ ho).1 rfl, rfl⟩
    generalize o.getD .object = t at ht
    refine Ends.bind ?_ fun _ _ => ends_pure _
    unfold fromNamedType
    dsimp only
    refine (ends_addHints r hac _ _ _).bind fun d0 h0 => ?_
    rw [nestedType_eq]
    refine (ends_sections r hac hr t _ _ hf.classes hf.elements d0).bind fun d hd => ?_
    refine ends_data r hr t d _ (convertSections_sound r _ _ _ _ _ (addHints_sound r _ _ _ _ partsSound_empty h0) hd) ?_
    rintro rfl
    obtain ⟨hp, hfe⟩ := hf.enum ht
    refine sections_coherent r _ _ _ _ ?_ hfe hd
    rcases addHints_ok r _ _ _ _ h0 with ⟨h, _⟩ | ⟨_, ls, hls, rfl⟩
    · exact absurd h enum_not_primitive
    · have := each_coherent r _ hp ls hls
      simpa [PartsCoherent, merged] using this

/-- C73: the same for the members in a section. -/
theorem C73_members (nested : BaseName) (es : List Element) (hf : ∀ e ∈ es, FitElement r nested e) :
    ∃ l, (convertElements r nested es).result = .ok l := ends_elements r hac hr nested es hf
end

/-! ## Registries -/

/-- C73: the registry that the conversion starts with, and every one that is made of it by additions and removals, is standard. -/
theorem C73_standard (ops : List RegOp) : Standard (ops.foldl regRun baseTypes) := by
  have step : ∀ (m : Bytes → Option Elem) (o : RegOp), (∀ k e, m k = some e → reserved k → e.name = k ∧ e.data.kind.name = k) →
      ∀ k e, regApply m o k = some e → reserved k → e.name = k ∧ e.data.kind.name = k := by
    intro m o hm k e h hk
    cases o with
    | add x =>
      simp only [regApply] at h
      split at h
      · exact hm k e h hk
      · split at h
        · rename_i hc; exact absurd (hc.2.2 ▸ hk) hc.1
        · exact hm k e h hk
    | remove n =>
      simp only [regApply] at h
      split at h
      · cases h
      · exact hm k e h hk
    | clear => cases h
  have all : ∀ (ops : List RegOp) (m : Bytes → Option Elem), (∀ k e, m k = some e → reserved k → e.name = k ∧ e.data.kind.name = k) →
      ∀ k e, ops.foldl regApply m k = some e → reserved k → e.name = k ∧ e.data.kind.name = k := by
    intro ops
    induction ops with
    | nil => exact fun m hm => hm
    | cons o ops ih => exact fun m hm => ih _ (step m o hm)
  intro k e h hk
  rw [C24_finite_map] at h
  refine all ops _ ?_ k e h hk
  intro k e h _
  have mem : ∀ (m : Reg) (k : Bytes) (e : Elem), StdMap.find m k = some e → (k, e) ∈ m := by
    intro m k e
    clear h
    induction m with
    | nil => intro h; simp [StdMap.find] at h
    | cons q m ih =>
      intro h
      obtain ⟨k', v⟩ := q
      rw [StdMap.find] at h
      split at h
      · rename_i hk; subst hk; cases h; simp
      · exact List.mem_cons_of_mem _ (ih h)
  have := mem _ _ _ h
  simp only [baseTypes, List.mem_cons, List.not_mem_nil, or_false, Prod.mk.injEq] at this
  rcases this with ⟨rfl, rfl⟩ | ⟨rfl, rfl⟩ | ⟨rfl, rfl⟩ | ⟨rfl, rfl⟩ | ⟨rfl, rfl⟩ | ⟨rfl, rfl⟩ | ⟨rfl, rfl⟩ <;> exact ⟨rfl, rfl⟩

/-! ## What can go wrong -/

theorem rootFrom_nil (k : Bytes) : rootFrom [] k = some none := by rw [rootFrom]; rfl

/-- An enumeration of a value and of a list of values, of the same type, that is not known. -/
def strangeEnum : NamedType :=
  { type := ⟨.value, ⟨⟨some .enum, [], false⟩, []⟩, 0⟩
    sections := [.mk .members [] [] [
      .value (.mk [] ⟨[⟨str "b", false⟩], ⟨.undefined, ⟨⟨none, str "A", true⟩, []⟩, 0⟩⟩ [] [] [] []),
      .value (.mk [] ⟨[⟨str "c", false⟩, ⟨str "d", false⟩], ⟨.undefined, ⟨⟨none, str "A", true⟩, []⟩, 0⟩⟩ [] [] [] [])] [] []] }

/-- C73 is false if types of an enumeration are not known: elements of one name are compared that are of different types, which
    dereferences a null pointer. -/
theorem C73_undefined_refuted : (msonToRefract [] strangeEnum).result = .error .undefined := by
  simp only [msonToRefract, strangeEnum, DataStructure.resolveType, W.pure_bind, fromNamedType, convertSections, convertSection, convertElements,
    convertElement, convertMember, memberWith, typeOfName, rootFrom_nil, W.ends]
  rfl

/-- C73 is false for a registry with a cycle of parents: the search for the basic type of a type never ends. -/
theorem C73_endless_refuted (r : Reg) (k : Bytes) (h : Reaches (ParentStep r) k k) (hk : k ≠ []) :
    (msonToRefract r { name := ⟨none, str "T", false⟩, type := ⟨.object, ⟨⟨none, k, false⟩, []⟩, 0⟩ }).result = .error .endless := by
  have : k.isEmpty = false := by simpa using hk
  simp [msonToRefract, typeEmpty, nameEmpty, DataStructure.resolveType, this, typeOfName, C25_cyclic_refuted r k h, W.ends, W.bind, W.stop, str]

/-! ## Cases -/

/-- An enumeration of a value and an object with a property, which is a choice. -/
def fitType : NamedType :=
  { type := ⟨.value, ⟨⟨some .enum, [], false⟩, []⟩, 0⟩
    sections := [.mk .members [] [] [
      .value (.mk [] ⟨[⟨str "b", false⟩], ⟨.implicitValue, {}, 0⟩⟩ [] [] [] []),
      .value (.mk [] ⟨[], ⟨.object, ⟨⟨some .object, [], false⟩, []⟩, 0⟩⟩ [.mk .members [] [] [.oneOf [
        .property { literal := str "k" } [] (.mk [] ⟨[⟨str "1", false⟩], ⟨.value, ⟨⟨some .number, [], false⟩, []⟩, 0⟩⟩ [] [] [] []),
        .group [.mixin {}]]] [] []] [] [] [])] [] []] }

theorem memberIs_basic {r : Reg} {nested t u : BaseName} {m : Member} (h : MemberIs r nested m t) (hu : m.definition.type.spec.name.base = some u) : t = u :=
  memberIs_unique h (.typed (.inl hu))

example : Acyclic (ParentStep []) ∧ Standard [] ∧ FitNamed [] fitType ∧ ∃ e, (msonToRefract [] fitType).result = .ok (some e) := by
  refine ⟨?_, ?_, ?_, _, rfl⟩
  · have : ∀ a b, ¬ ParentStep [] a b := by rintro a b ⟨_, _, h, _⟩; simp [StdMap.find] at h
    intro a h
    cases h with
    | single h => exact this _ _ h
    | tail _ h => exact this _ _ h
  · intro k e h; simp [StdMap.find] at h
  · refine ⟨by simp [fitType, Section.klass], ?_, ?_⟩
    · intro s hs e he
      simp only [fitType, List.mem_singleton] at hs
      subst hs
      simp only [Section.elements, List.mem_cons, List.not_mem_nil, or_false] at he
      rcases he with rfl | rfl
      · refine .value (.mk (by simp [Member.sections]) (by simp [Member.sections]) (by simp [Member.definition]) (fun _ => ⟨?_, by simp [Member.sections]⟩))
        intro n hn; simp [Member.definition] at hn
      · refine .value (.mk (by simp [Member.sections, Section.klass]) ?_ (by simp [Member.definition]) (fun h => ?_))
        · intro s hs e he
          simp only [Member.sections, List.mem_singleton] at hs
          subst hs
          simp only [Section.elements, List.mem_singleton] at he
          subst he
          refine .oneOf ?_
          intro e he
          simp only [List.mem_cons, List.not_mem_nil, or_false] at he
          rcases he with rfl | rfl
          · refine .single (.property (.inl ⟨rfl, rfl, rfl⟩) (.mk (by simp [Member.sections]) (by simp [Member.sections]) (by simp [Member.definition]) ?_))
            intro h; cases memberIs_basic h rfl
          · refine .group ?_
            intro e he
            simp only [List.mem_singleton] at he
            subst he
            exact .mixin
        · cases memberIs_basic h rfl
    · intro _
      refine ⟨by simp [fitType], ?_⟩
      intro s hs e he
      simp only [fitType, List.mem_singleton] at hs
      subst hs
      simp only [Section.elements, List.mem_cons, List.not_mem_nil, or_false] at he
      rcases he with rfl | rfl
      · exact ⟨.inl rfl, fun h => absurd rfl h⟩
      · exact ⟨.inr rfl, fun h => absurd rfl h⟩

end Verif.Props
