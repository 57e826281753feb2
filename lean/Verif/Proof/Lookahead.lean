import Verif.Proof.DataGroup
import Verif.Proof.ResourceParts
import Verif.Spec.Lookahead
import Verif.Model.Lookahead

/-! # Which types a document declares -/

namespace Verif.Lookahead
open Verif Verif.Text Verif.Regex Verif.Section Verif.Recognition Verif.Spec Verif.Spec.Recognition Verif.Spec.Payload Verif.Props
open Verif.Spec.DataGroup Verif.Spec.Resource Verif.Spec.Lookahead
open Verif.DataGroup (heading_values)
open Verif.MsonParser (typeTraits signatureOf)
open Verif.NamedTypes (Decl)

/-! ## Kinds of headers -/

theorem header_kinds (n : Node) (hh : n.kind = .header) :
    (sectionOf n = .resource ↔ ResourceStart n) ∧ (sectionOf n = .dataStructureGroup ↔ DataStart n) ∧
    (sectionOf n = .undefined ↔ TypeHeader n) ∧
    (dataSections.contains (sectionOf n) = true ↔ TypeHeader n ∨ TypeHeading n ∨ DataStart n) := by
  unfold ResourceStart DataStart TypeHeader sectionOf
  obtain ⟨e1, e2, e3, e4, e5⟩ := heading_values n hh
  rw [← e1, ← e2, ← e3, ← e4, ← e5, Action.first_header hh, ← Resource.whole_iff]
  have tv := Action.typeSection_values' n
  have v1 := ofHeader_values n (recognise.resource n.text) .resource
  have v2 := ofHeader_values n (recognise.action n.text || recognise.namedAction n.text) .action
  have v3 := ofHeader_values n (recognise.group n.text) .resourceGroup
  have v4 := ofHeader_values n (recognise.dataStructures n.text) .dataStructureGroup
  change recognise.resourceType n = _ ∨ recognise.resourceType n = _ at v1
  change recognise.actionSectionType n = _ ∨ recognise.actionSectionType n = _ at v2
  change recognise.groupType n = _ ∨ recognise.groupType n = _ at v3
  change recognise.dataStructuresType n = _ ∨ recognise.dataStructuresType n = _ at v4
  simp only [hh, true_and]
  clear e1 e2 e3 e4 e5
  generalize recognise.typeSectionType n = a at *
  generalize recognise.resourceType n = b at *
  generalize recognise.actionSectionType n = c at *
  generalize recognise.groupType n = d at *
  generalize recognise.dataStructuresType n = e at *
  generalize recognise.actionType n = w at *
  simp only [List.mem_cons, List.not_mem_nil, or_false] at tv
  rcases tv with rfl | rfl | rfl | rfl <;> rcases v1 with rfl | rfl <;> rcases v2 with rfl | rfl <;> rcases v3 with rfl | rfl <;>
    rcases v4 with rfl | rfl <;> cases w <;> decide

theorem resource_header {n : Node} (h : ResourceStart n) : n.kind = .header := h.2.1.1
theorem data_header {n : Node} (h : DataStart n) : n.kind = .header := h.2.2.2.2.1

theorem keyword_item {n : Node} (h : n.kind ≠ .header) : recognise.keyword n = Recognise.first [recognise.typeSectionType n,
    recognise.mixinType n, recognise.oneOfType n, recognise.headersType n, recognise.assetType n, recognise.attributesType n,
    recognise.payloadType n, recognise.valuesType n, recognise.parametersType n, recognise.relationType n] := by
  have l0 : ∀ b t, Recognise.ofHeader n b t = .undefined := by intro b t; simp [Recognise.ofHeader, h]
  have e1 : recognise.resourceType n = .undefined := l0 _ _
  have e2 : recognise.actionSectionType n = .undefined := l0 _ _
  have e3 : recognise.groupType n = .undefined := l0 _ _
  have e4 : recognise.dataStructuresType n = .undefined := l0 _ _
  unfold Recognise.keyword
  rw [e1, e2, e3, e4]
  simp only [Recognise.first, ne_eq, not_true_eq_false, if_false]

theorem item_kinds (n : Node) (hh : n.kind ≠ .header) : sectionOf n = .attributes ↔ AttributesItem n := by
  have ha : recognise.actionType n ≠ .complete := by
    unfold Recognise.actionType
    rw [if_pos (.inl hh)]; simp
  have e : sectionOf n = recognise.keyword n := by unfold sectionOf; rw [if_neg (fun h => ha h.2)]
  rw [e, keyword_item hh]
  obtain ⟨s1, s2, s3, s4, s5, s6, s7⟩ := C77_sections n
  have v1 : recognise.headersType n = .headers ∨ recognise.headersType n = .undefined := ofList_values
  have v3 : recognise.attributesType n = .attributes ∨ recognise.attributesType n = .undefined := ofList_values
  have v2 : recognise.parametersType n = .parameters ∨ recognise.parametersType n = .undefined := ofList_values
  have v4 : recognise.relationType n = .relation ∨ recognise.relationType n = .undefined := ofList_values
  have v5 : recognise.oneOfType n = .msonOneOf ∨ recognise.oneOfType n = .undefined := ofList_values
  have v6 : recognise.valuesType n = .values ∨ recognise.valuesType n = .undefined := ofList_values
  have v7 : recognise.mixinType n = .msonMixin ∨ recognise.mixinType n = .undefined := ofList_values
  have tv := Action.typeSection_values' n
  have av : recognise.assetType n = .body ∨ recognise.assetType n = .schema ∨ recognise.assetType n = .undefined := by
    show Recognise.ofList n (assetOf n) = _ ∨ Recognise.ofList n (assetOf n) = _ ∨ Recognise.ofList n (assetOf n) = _
    unfold Recognise.ofList assetOf
    repeat' split
    all_goals simp
  have pv := Action.payload_values n
  have t1 := typeSection_iff n
  obtain ⟨a1, a2⟩ := C77_asset n
  change _ ↔ AttributesItem n at s3
  constructor
  · intro h
    rw [← s3]
    rcases v3 with v3 | v3
    · exact v3
    · exfalso
      have hm := first_cases h
      simp only [List.mem_cons, List.not_mem_nil, or_false, reduceCtorEq, false_or] at hm tv pv
      clear s1 s2 s3 s4 s5 s6 s7 t1 a1 a2
      rcases hm with hm | hm | hm | hm | hm | hm | hm | hm | hm | hm
      · rw [← hm] at tv; simp at tv
      · rw [← hm] at v7; simp at v7
      · rw [← hm] at v5; simp at v5
      · rw [← hm] at v1; simp at v1
      · rw [← hm] at av; simp at av
      · rw [← hm] at v3; simp at v3
      · rw [← hm] at pv; simp at pv
      · rw [← hm] at v6; simp at v6
      · rw [← hm] at v2; simp at v2
      · rw [← hm] at v4; simp at v4
  · intro h
    have form : Item.Form .attributes (cstr (frontLine n)) := (itemLine_iff.mp h).2
    have no : ∀ {j : Item}, Item.attributes ≠ j → ¬ ∃ s, ItemLine n s ∧ j.Form s := fun hj h' => not_form form hj (itemLine_iff.mp h').2
    have u0 : recognise.typeSectionType n = .undefined := by
      apply Classical.byContradiction
      intro hc
      rcases t1.mp hc with ⟨h', _⟩ | ⟨s, h1, h2⟩
      · exact hh h'
      · unfold TypeSectionForm at h2
        rcases h2 with h2 | h2 | h2 | h2
        · exact no (j := .sampleDefault) (by decide) ⟨s, h1, .inl h2⟩
        · exact no (j := .sampleDefault) (by decide) ⟨s, h1, .inr h2⟩
        · exact no (j := .valueMembers) (by decide) ⟨s, h1, h2⟩
        · exact no (j := .propertyMembers) (by decide) ⟨s, h1, h2⟩
    have u7 : recognise.mixinType n = .undefined := by
      rcases v7 with v | v
      · exact absurd (itemBlock_iff.mp (s7.mp v)).2 (MsonParser.not_include (by decide) form)
      · exact v
    have u5 : recognise.oneOfType n = .undefined := by
      rcases v5 with v | v
      · exact absurd (s5.mp v) (no (j := .oneOf) (by decide))
      · exact v
    have u1 : recognise.headersType n = .undefined := by
      rcases v1 with v | v
      · exact absurd (s1.mp v) (no (j := .headers) (by decide))
      · exact v
    have ua : recognise.assetType n = .undefined := by
      rcases av with v | v | v
      · exact absurd (a1.mp v) (no (j := .body) (by decide))
      · exact absurd (a2.mp v) (no (j := .schema) (by decide))
      · exact v
    rw [u0, u7, u5, u1, ua, s3.mpr h]
    rfl

theorem item_list {n : Node} (h : AttributesItem n) : n.kind = .listItem ∧ n.children ≠ [] := (itemLine_iff.mp h).1

/-! ## Declarations -/

theorem loop_front (t : Signature.Traits) (s : Bytes) (i : Nat) (id : Bytes) : ∃ z, (Signature.identifierLoop t s i id).2.2 = id ++ z := by
  fun_induction Signature.identifierLoop t s i id
  all_goals first
    | (rename_i ih; obtain ⟨z, hz⟩ := ih; exact ⟨_, by rw [hz, List.append_assoc]⟩)
    | exact ⟨[], by simp⟩

theorem item_front {n : Node} (h : AttributesItem n) : ∃ c q, trim (frontText n) = c :: q ∧ (c = asc 'A' ∨ c = asc 'a') := by
  obtain ⟨_, a, w, b, r, he, ha, hw, _⟩ := itemLine_iff.mp h
  obtain ⟨v, hv⟩ : ∃ v, frontLine n = cstr (frontLine n) ++ v := by
    have := (cstr_iff (t := frontLine n)).mp rfl
    rcases this.2 with h | ⟨r, h⟩
    · exact ⟨[], by rw [List.append_nil]; exact h⟩
    · exact ⟨_, h⟩
  obtain ⟨_, _, _, _, _, h1, _⟩ := trim_spec (getFirstLine (frontText n)).1
  change ∀ c, (frontLine n).head? = some c → _ at h1
  rw [he] at hv
  have h0 : a = [] := by
    cases a with
    | nil => rfl
    | cons x a =>
      exfalso
      refine h1 x (by rw [hv]; rfl) ?_
      exact blanks_blank ha x (by simp)
  subst h0
  obtain ⟨c, w', rfl, hc⟩ : ∃ c w', w = c :: w' ∧ (c = asc 'A' ∨ c = asc 'a') := by
    rcases hw with (rfl | rfl) | (rfl | rfl)
    · exact ⟨_, _, rfl, .inl rfl⟩
    · exact ⟨_, _, rfl, .inr rfl⟩
    · exact ⟨_, _, rfl, .inl rfl⟩
    · exact ⟨_, _, rfl, .inr rfl⟩
  have hne : trim (getFirstLine (frontText n)).1 ≠ [] := by
    change frontLine n ≠ []
    rw [hv]; simp
  obtain ⟨r', hr⟩ : ∃ r, frontText n = (getFirstLine (frontText n)).1 ++ r := by
    have := (firstLine_iff (text := frontText n) (s := (getFirstLine (frontText n)).1)).mpr rfl
    obtain ⟨_, h | ⟨r, h⟩⟩ := this
    · exact ⟨[], by simpa using h⟩
    · exact ⟨_, h⟩
  obtain ⟨z, hz⟩ := MsonParser.trim_front (r := r') hne
  rw [← hr] at hz
  refine ⟨c, w' ++ b ++ r ++ v ++ z, ?_, hc⟩
  rw [hz]
  change frontLine n ++ z = _
  rw [hv]
  simp

theorem except_bind {α β ε : Type} {x : Except ε α} {f : α → Except ε β} {y : β} (h : x.bind f = .ok y) : ∃ a, x = .ok a ∧ f a = .ok y := by
  cases x with
  | error _ => cases h
  | ok a => exact ⟨a, rfl, h⟩

theorem identifier_front {s : Bytes} {c : UInt8} {q : Bytes} (h : trim s = c :: q) (hc : c = asc 'A' ∨ c = asc 'a') {sig}
    (hs : Signature.parseSignature typeTraits s = .ok sig) : Mson.checkVariable sig.identifier = false := by
  have hne : s ≠ [] := by rintro rfl; cases h
  have hid : sig.identifier = (Signature.parseIdentifier typeTraits s).1 := by
    obtain ⟨r, _, h2⟩ := except_bind hs
    cases h2
    show (if typeTraits.identifier && !s.isEmpty then Signature.parseIdentifier typeTraits s else ([], s)).1 = _
    cases s with
    | nil => exact absurd rfl hne
    | cons _ _ => rfl
  obtain ⟨z, hz⟩ : ∃ z, (Signature.identifierLoop typeTraits (trim s) 0 []).2.2 = [c] ++ z := by
    rw [h]
    unfold Signature.identifierLoop
    have hn : c ∉ str "*_`" := by rcases hc with rfl | rfl <;> decide
    have hp : ((typeTraits.values && c == typeTraits.valuesDelimiter) || (typeTraits.attributes && c == asc '(') ||
        Signature.contentAt typeTraits (c :: q) 0) = false := by rcases hc with rfl | rfl <;> rfl
    split
    · rename_i he; cases he
    · rename_i c' he
      cases he
      rw [if_neg hn, hp, if_neg (by decide)]
      exact loop_front _ _ _ _
  have hw : ¬ White c := by rw [← isSpace_iff]; rcases hc with rfl | rfl <;> decide
  obtain ⟨x, hx⟩ : ∃ x, sig.identifier = c :: x := by
    rw [hid]
    unfold Signature.parseIdentifier
    simp only
    rw [hz]
    have hb : Bare [c] := ⟨fun x hx => by cases hx; exact hw, fun x hx => by cases hx; exact hw⟩
    have : trim [c] = [c] := trim_bare hb
    obtain ⟨y, hy⟩ := MsonParser.trim_front (l := [c]) (r := z) (by rw [this]; simp)
    exact ⟨y, by rw [hy, this]; rfl⟩
  rw [hx]
  unfold Mson.checkVariable
  cases hl : (c :: x).getLast? with
  | none => rfl
  | some y =>
    show ((c == asc '*' || c == asc '_') && c == y) = false
    rcases hc with rfl | rfl <;> rfl

theorem specified (attributes : List Bytes) (d : Decl) :
    Specified attributes d ↔ (Mson.parseTypeDefinition unknown attributes).1.spec = ⟨d.type, d.nested⟩ := by
  constructor
  · intro h; exact h _
  · intro h c; rw [← h]; rfl

theorem signature_same {s : Bytes} {sig sig' : Signature.Signature} {ws ws' : List MsonParser.Warning}
    (h : SignatureLine.SignatureLine typeTraits s sig ws) (h' : SignatureLine.SignatureLine typeTraits s sig' ws') : sig' = sig := by
  have h := ((Verif.SignatureLine.signature_iff (by decide)).mp h).1
  have h' := ((Verif.SignatureLine.signature_iff (by decide)).mp h').1
  rw [h] at h'
  cases h'
  rfl

theorem declare_header {n : Node} {r : Option Decl} : declare n n.text [] = .ok r ↔ ∃ d, r = some d ∧ HeaderDeclares n d := by
  unfold declare HeaderDeclares
  have e : (if n.text = [] then trim (getFirstLine n.text).1 else n.text) = n.text := by
    split
    · rename_i h; rw [h]; decide
    · rfl
  rw [e]
  cases hs : signatureOf typeTraits n.text [] with
  | error e =>
    constructor
    · intro h; cases h
    · rintro ⟨d, _, sig, sw, h1, _⟩
      rw [(MsonParser.signatureOf_iff (by decide)).mpr ⟨sig, h1, rfl⟩] at hs
      cases hs
  | ok p =>
    obtain ⟨sig, ws⟩ := p
    obtain ⟨s, h1, rfl⟩ := (MsonParser.signatureOf_iff (by decide)).mp hs
    simp only [ne_eq, not_true_eq_false, false_and, if_false, if_neg]
    constructor
    · intro h
      cases h
      exact ⟨_, rfl, s, _, h1, rfl, (specified _ _).mpr rfl⟩
    · rintro ⟨d, rfl, s', sw', h1', h2, h3⟩
      obtain rfl := signature_same h1 h1'
      have h3 := (specified _ _).mp h3
      cases d
      simp only at h2 h3
      rw [h3, h2]

theorem declare_item {n : Node} {name : Bytes} (ha : AttributesItem n) (hn : name ≠ []) {r : Option Decl} :
    declare n (frontText n) name = .ok r ↔ ∃ d, r = some d ∧ ItemDeclares n name d := by
  unfold declare ItemDeclares
  obtain ⟨c, q, h1, h2⟩ := item_front ha
  have hne : frontText n ≠ [] := by intro h; rw [h] at h1; cases h1
  rw [if_neg hne]
  obtain ⟨k, ks, hk⟩ : ∃ k ks, n.children = k :: ks := by
    cases hc : n.children with
    | nil => exact absurd hc (item_list ha).2
    | cons k ks => exact ⟨k, ks, rfl⟩
  have hf : frontText n = k.text := by unfold frontText; rw [hk]; rfl
  cases hs : signatureOf typeTraits (frontText n) [] with
  | error e =>
    constructor
    · intro h; cases h
    · rintro ⟨d, _, c, cs, sig, sw, h0, h1, _⟩
      rw [hk] at h0; cases h0
      rw [hf, (MsonParser.signatureOf_iff (by decide)).mpr ⟨sig, h1, rfl⟩] at hs
      cases hs
  | ok p =>
    obtain ⟨sig, ws⟩ := p
    obtain ⟨s, hs1, rfl⟩ := (MsonParser.signatureOf_iff (by decide)).mp hs
    have hv := identifier_front h1 h2 ((Verif.SignatureLine.signature_iff (by decide)).mp hs1).1
    simp only [hv, Bool.false_eq_true, and_false, if_false, ne_eq, hn, not_false_eq_true, if_true]
    constructor
    · intro h
      cases h
      exact ⟨_, rfl, k, ks, s, _, hk, by rw [← hf]; exact hs1, rfl, (specified _ _).mpr rfl⟩
    · rintro ⟨d, rfl, c', cs', s', sw', h0, h1', h2, h3⟩
      rw [hk] at h0; cases h0
      rw [← hf] at h1'
      obtain rfl := signature_same hs1 h1'
      have h3 := (specified _ _).mp h3
      cases d
      simp only at h2 h3
      rw [h3, h2]

theorem named_some {h : Node} {name : Bytes} (hne : name ≠ []) : (namedResource h.text).name = name ↔ NamedAs h name := by
  unfold NamedAs
  constructor
  · intro he
    by_cases g : ∃ n u, NamedResourceLine (cstr h.text) n u
    · obtain ⟨n, u, g⟩ := g
      refine ⟨_, n, u, Resource.beforeNul_iff.mpr rfl, g, ?_⟩
      rw [← he, value g]
      exact trim_spec _
    · exfalso
      have : regexCapture h.text namedResourceHeaderRegex 4 = none :=
        regexCapture_full_none 4 c_namedResource (by rw [L_namedResource]; exact g)
      unfold namedResource at he
      rw [this] at he
      exact hne he.symm
  · rintro ⟨s, n, u, h1, h2, h3⟩
    rw [Resource.beforeNul_iff] at h1
    subst h1
    rw [value h2]
    exact trim_unique h3
where
  value {text n u : Bytes} (h : NamedResourceLine (cstr text) n u) : (namedResource text).name = trim n := by
    have hx : Regex.Lang xNamedResource (cstr text) := L_namedResource.mpr ⟨n, u, h⟩
    obtain ⟨g, h1, h2⟩ := regexCapture_full 4 c_namedResource (by decide) n_namedResource hx
    obtain ⟨n', u', h3, g1, g3⟩ := g_namedResource hx
    have e1 := h2 1 (by omega)
    rw [if_neg (by decide)] at e1
    have e1 : g.getD 1 [] = grp xNamedResource (cstr text) 1 := e1
    obtain ⟨u1, u3⟩ := namedResourceLine_unique h h3
    simp only [namedResource, h1, e1, g1]
    rw [← u1]

/-! ## Where a block is -/

theorem last_cases {α : Type} {P Q : α → Prop} {before : List α} {n : α} :
    (∃ pre d mid, before ++ [n] = pre ++ d :: mid ∧ P d ∧ ∀ m ∈ mid, Q m) ↔
      P n ∨ (∃ pre d mid, before = pre ++ d :: mid ∧ P d ∧ ∀ m ∈ mid, Q m) ∧ Q n := by
  constructor
  · rintro ⟨pre, d, mid, he, h1, h2⟩
    rcases List.eq_nil_or_concat mid with rfl | ⟨mid', m, rfl⟩
    · have := List.append_inj' he rfl
      obtain ⟨_, h⟩ := this
      cases h
      exact .inl h1
    · right
      rw [List.concat_eq_append] at he h2
      rw [show pre ++ d :: (mid' ++ [m]) = (pre ++ d :: mid') ++ [m] by simp] at he
      obtain ⟨h, h'⟩ := List.append_inj' he rfl
      cases h'
      exact ⟨⟨pre, d, mid', h, h1, fun m hm => h2 m (List.mem_append_left _ hm)⟩, h2 n (by simp)⟩
  · rintro (h | ⟨⟨pre, d, mid, rfl, h1, h2⟩, h3⟩)
    · exact ⟨before, n, [], rfl, h, by simp⟩
    · refine ⟨pre, d, mid ++ [n], by simp, h1, fun m hm => ?_⟩
      rcases List.mem_append.mp hm with hm | hm
      · exact h2 m hm
      · rw [List.mem_singleton] at hm; rw [hm]; exact h3

theorem data_snoc {before : List Node} {n : Node} :
    InData (before ++ [n]) ↔ DataStart n ∨ InData before ∧ (n.kind = .header → TypeHeader n ∨ TypeHeading n ∨ DataStart n) :=
  last_cases (P := DataStart) (Q := fun m => m.kind = .header → TypeHeader m ∨ TypeHeading m ∨ DataStart m)

theorem resource_snoc {before : List Node} {n h : Node} :
    InResource (before ++ [n]) h ↔ n = h ∧ ResourceStart n ∨ InResource before h ∧ ¬ ResourceStart n ∧ ¬ DataStart n ∧ ¬ ActionHeading n := by
  have key := last_cases (P := fun d => d = h ∧ ResourceStart d) (Q := fun m => ¬ ResourceStart m ∧ ¬ DataStart m ∧ ¬ ActionHeading m)
    (before := before) (n := n)
  have e : ∀ l : List Node, InResource l h ↔ ∃ pre d mid, l = pre ++ d :: mid ∧ (d = h ∧ ResourceStart d) ∧
      ∀ m ∈ mid, ¬ ResourceStart m ∧ ¬ DataStart m ∧ ¬ ActionHeading m := by
    intro l
    constructor
    · rintro ⟨pre, mid, h1, h2, h3⟩; exact ⟨pre, h, mid, h1, ⟨rfl, h2⟩, h3⟩
    · rintro ⟨pre, d, mid, h1, ⟨rfl, h2⟩, h3⟩; exact ⟨pre, mid, h1, h2, h3⟩
  rw [e, e]
  exact key

/-- The place after the block. -/
def next (n : Node) (p : Place) : Place :=
  if n.kind = .header then
    match entered n p with
    | .data => if dataSections.contains (sectionOf n) then .data else .nowhere
    | q => q
  else p

/-- The place is that of a block after those. -/
def At (before : List Node) (p : Place) : Prop := (InData before ↔ p = .data) ∧ ∀ h, InResource before h ↔ p = .resource h

theorem at_start : At [] .nowhere := by
  refine ⟨⟨?_, fun h => by cases h⟩, fun h => ⟨?_, fun h => by cases h⟩⟩
  · rintro ⟨pre, d, mid, h, _⟩; simp at h
  · rintro ⟨pre, mid, h, _⟩; simp at h

theorem at_next {before : List Node} {n : Node} {p : Place} (h : At before p) : At (before ++ [n]) (next n p) := by
  obtain ⟨h1, h2⟩ := h
  unfold At
  simp only [data_snoc, resource_snoc, h1, h2]
  unfold next
  by_cases hh : n.kind = .header
  · rw [if_pos hh]
    obtain ⟨k1, k2, k3, k4⟩ := header_kinds n hh
    have ka := (heading_values n hh).2.2.1
    unfold entered
    by_cases hr : ResourceStart n
    · have hd : ¬ DataStart n := fun h => h.2.1 hr.2.1
      have ht : ¬ TypeHeader n := fun h => h.2.2.1 hr.2.1
      have hg : ¬ TypeHeading n := hr.1
      rw [if_pos (k1.mpr hr)]
      simp [hr, hd, ht, hg, hh]
    · rw [if_neg (fun h => hr (k1.mp h))]
      by_cases hd : DataStart n
      · rw [if_pos (k2.mpr hd)]
        simp only
        rw [if_pos (k4.mpr (.inr (.inr hd)))]
        simp [hr, hd]
      · rw [if_neg (fun h => hd (k2.mp h))]
        cases p with
        | data =>
          simp only
          by_cases hc : TypeHeader n ∨ TypeHeading n ∨ DataStart n
          · rw [if_pos (k4.mpr hc)]
            simp [hc, hr]
          · rw [if_neg (fun h => hc (k4.mp h))]
            simp only [hc, hr, hd, hh, true_implies, and_false, or_false, false_or, reduceCtorEq, not_false_eq_true, true_and, implies_true,
              and_self, false_and, iff_false]
            exact ⟨fun h => hc (h.elim .inl fun h => .inr (.inl h)), trivial⟩
        | nowhere =>
          simp only
          rw [ite_self]
          simp [hr, hd]
        | resource h' =>
          simp only
          by_cases ha : ActionHeading n
          · rw [if_pos (ka.mpr ha)]
            simp [hr, hd, ha]
          · rw [if_neg (fun h => ha (ka.mp h))]
            simp [hr, hd, ha]
  · rw [if_neg hh]
    have hr : ¬ ResourceStart n := fun h => hh (resource_header h)
    have hd : ¬ DataStart n := fun h => hh (data_header h)
    have ha : ¬ ActionHeading n := fun h => hh h.1
    simp [hr, hd, ha, hh]

/-! ## One block -/

theorem map_ok {α β ε : Type} {x : Except ε α} {f : α → β} {y : β} : x.map f = .ok y ↔ ∃ a, x = .ok a ∧ f a = y := by
  cases x with
  | error _ => simp [Except.map]
  | ok a => simp [Except.map]

theorem visit_header {n : Node} (hh : n.kind = .header) {p : Place} : (entered n p = .data ∧ sectionOf n = .undefined) ↔ p = .data ∧ TypeHeader n := by
  obtain ⟨k1, k2, k3, k4⟩ := header_kinds n hh
  rw [k3]
  constructor
  · rintro ⟨h1, h2⟩
    refine ⟨?_, h2⟩
    unfold entered at h1
    rw [k3.mpr h2, if_neg (by decide), if_neg (by decide)] at h1
    cases p with
    | data => rfl
    | nowhere => simp only at h1; split at h1 <;> cases h1
    | resource _ => simp only at h1; split at h1 <;> cases h1
  · rintro ⟨rfl, h2⟩
    refine ⟨?_, h2⟩
    unfold entered
    rw [k3.mpr h2, if_neg (by decide), if_neg (by decide)]

theorem visit_iff {before : List Node} {n : Node} {s t : State} (h : At before s.place) : visit n s = .ok t ↔
    (∃ d, Declares before n d ∧ t = { s with place := next n s.place, decls := s.decls ++ [d] }) ∨
    ¬ Declaring before n ∧ t = { s with place := next n s.place } := by
  obtain ⟨h1, h2⟩ := h
  unfold visit next
  by_cases hh : n.kind = .header
  · rw [if_pos hh, if_pos hh]
    obtain ⟨k1, k2, k3, k4⟩ := header_kinds n hh
    have hi : ¬ AttributesItem n := fun h => by rw [(item_list h).1] at hh; cases hh
    by_cases hd : s.place = .data ∧ TypeHeader n
    · obtain ⟨e1, e2⟩ := (visit_header hh).mpr hd
      rw [e1]
      simp only
      rw [e2, if_neg (by decide), if_pos rfl, if_pos (by decide), map_ok]
      have hD : Declaring before n := .inl ⟨h1.mpr hd.1, hd.2⟩
      constructor
      · rintro ⟨r, h3, rfl⟩
        obtain ⟨d, rfl, h4⟩ := declare_header.mp h3
        exact .inl ⟨d, .type (h1.mpr hd.1) hd.2 h4, rfl⟩
      · rintro (⟨d, h3, rfl⟩ | ⟨h3, _⟩)
        · cases h3 with
          | type _ _ h4 => exact ⟨some d, declare_header.mpr ⟨d, rfl, h4⟩, rfl⟩
          | attributes _ h4 => exact absurd h4 hi
        · exact absurd hD h3
    · have hD : ¬ Declaring before n := by
        rintro (⟨h3, h4⟩ | ⟨h3, _⟩)
        · exact hd ⟨h1.mp h3, h4⟩
        · exact hi h3
      have hd' := fun h => hd ((visit_header hh (p := s.place)).mp h)
      have hno : ∀ d, ¬ Declares before n d := by
        rintro d (⟨h3, h4, _⟩ | ⟨_, h4, _⟩)
        · exact hD (.inl ⟨h3, h4⟩)
        · exact hi h4
      cases he : entered n s.place with
      | data =>
        have hu : sectionOf n ≠ .undefined := fun h => hd' ⟨he, h⟩
        simp only
        by_cases hc : dataSections.contains (sectionOf n) = true
        · rw [if_neg (fun h => h hc), if_neg hu, if_pos hc]
          constructor
          · intro h; cases h; exact .inr ⟨hD, rfl⟩
          · rintro (⟨d, h3, _⟩ | ⟨_, rfl⟩)
            · exact absurd h3 (hno d)
            · rfl
        · rw [if_pos hc, if_neg hc]
          constructor
          · intro h; cases h; exact .inr ⟨hD, rfl⟩
          · rintro (⟨d, h3, _⟩ | ⟨_, rfl⟩)
            · exact absurd h3 (hno d)
            · rfl
      | nowhere =>
        constructor
        · intro h; cases h; exact .inr ⟨hD, rfl⟩
        · rintro (⟨d, h3, _⟩ | ⟨_, rfl⟩)
          · exact absurd h3 (hno d)
          · rfl
      | resource _ =>
        constructor
        · intro h; cases h; exact .inr ⟨hD, rfl⟩
        · rintro (⟨d, h3, _⟩ | ⟨_, rfl⟩)
          · exact absurd h3 (hno d)
          · rfl
  · rw [if_neg hh, if_neg hh]
    have hT : ¬ TypeHeader n := fun h => hh h.1
    have hno : ¬ Declaring before n → ∀ d, ¬ Declares before n d := by
      rintro hD d (⟨_, h4, _⟩ | ⟨h3, h4, h5, h6, _⟩)
      · exact hT h4
      · exact hD (.inr ⟨h4, _, _, h3, h5, h6⟩)
    have skip_ : ∀ s : State, ¬ Declaring before n → ((.ok s : Except Stop State) = .ok t ↔
        (∃ d, Declares before n d ∧ t = { s with place := s.place, decls := s.decls ++ [d] }) ∨ ¬ Declaring before n ∧ t = { s with place := s.place }) := by
      intro s hD
      constructor
      · intro h; cases h; exact .inr ⟨hD, rfl⟩
      · rintro (⟨d, h3, _⟩ | ⟨_, rfl⟩)
        · exact absurd h3 (hno hD d)
        · rfl
    obtain ⟨pl, decls, typos⟩ := s
    simp only at h1 h2
    cases pl with
    | data =>
      refine skip_ _ ?_
      rintro (⟨_, h⟩ | ⟨_, h', name, h3, _⟩)
      · exact hT h
      · have := (h2 h').mp h3; cases this
    | nowhere =>
      refine skip_ _ ?_
      rintro (⟨_, h⟩ | ⟨_, h', name, h3, _⟩)
      · exact hT h
      · have := (h2 h').mp h3; cases this
    | resource g =>
      by_cases hc : n.kind = .listItem ∧ sectionOf n = .attributes ∧ (namedResource g.text).name ≠ []
      · obtain ⟨c1, c2, c3⟩ := hc
        have hi := (item_kinds n hh).mp c2
        have hn := (named_some c3).mp rfl
        show (if _ then _ else _ : Except Stop State) = _ ↔ _
        rw [if_pos ⟨c1, c2, c3⟩, map_ok]
        constructor
        · rintro ⟨r, h3, rfl⟩
          obtain ⟨d, rfl, h4⟩ := (declare_item hi c3).mp h3
          exact .inl ⟨d, .attributes ((h2 g).mpr rfl) hi hn c3 h4, rfl⟩
        · rintro (⟨d, h3, rfl⟩ | ⟨h3, _⟩)
          · cases h3 with
            | type _ h4 => exact absurd h4 hT
            | attributes h3 h4 h5 h6 h7 =>
              have e := (h2 _).mp h3
              cases e
              have h5 := (named_some h6).mpr h5
              subst h5
              exact ⟨some d, (declare_item hi c3).mpr ⟨d, rfl, h7⟩, rfl⟩
          · exact absurd (.inr ⟨hi, g, _, (h2 g).mpr rfl, hn, c3⟩) h3
      · show (if _ then _ else _ : Except Stop State) = _ ↔ _
        rw [if_neg hc]
        refine skip_ _ ?_
        rintro (⟨_, h⟩ | ⟨hi, h', name, h3, h4, h5⟩)
        · exact hT h
        · have e := (h2 _).mp h3
          cases e
          have h4 := (named_some h5).mpr h4
          exact hc ⟨(item_list hi).1, (item_kinds n hh).mpr hi, by rw [h4]; exact h5⟩

theorem mistake_iff {n : Node} : mistake n = true ↔ Mistaken n := by
  unfold mistake Mistaken
  by_cases hh : n.kind = .header
  · obtain ⟨_, _, k3, _⟩ := header_kinds n hh
    simp only [Bool.and_eq_true, decide_eq_true_eq, k3, hh, and_true]
    refine and_congr_right fun _ => ?_
    rw [typo, m_relative]
    constructor
    · intro h; exact ⟨_, Resource.beforeNul_iff.mpr rfl, h⟩
    · rintro ⟨s, h1, h2⟩; rw [Resource.beforeNul_iff] at h1; subst h1; exact h2
  · have : ¬ TypeHeader n := fun h => hh h.1
    simp [hh, this]

/-! ## All blocks -/

theorem declares_declaring {before : List Node} {n : Node} {d : Decl} (h : Declares before n d) : Declaring before n := by
  cases h with
  | type h1 h2 _ => exact .inl ⟨h1, h2⟩
  | attributes h1 h2 h3 h4 _ => exact .inr ⟨h2, _, _, h1, h3, h4⟩

theorem lookahead_iff {ns : List Node} : ∀ {before : List Node} {s : State} {x : List Decl} {y : List Bytes}, At before s.place →
    (((lookahead ns s).map fun t => (t.decls, t.typos)) = .ok (x, y) ↔
      ∃ ds ts, Declarations before ns ds ∧ Mistakes ns ts ∧ x = s.decls ++ ds ∧ y = s.typos ++ ts) := by
  induction ns with
  | nil =>
    intro before s x y h
    show Except.ok (s.decls, s.typos) = _ ↔ _
    constructor
    · intro h; cases h; exact ⟨[], [], .nil, .nil, by simp, by simp⟩
    · rintro ⟨ds, ts, h1, h2, rfl, rfl⟩; cases h1; cases h2; simp
  | cons n ns ih =>
    intro before s x y h
    rw [lookahead]
    unfold step
    have hn := at_next (n := n) h
    cases hv : visit n s with
    | error e =>
      show Except.error e = _ ↔ _
      constructor
      · intro h; cases h
      · rintro ⟨ds, ts, h1, _⟩
        exfalso
        have : ∃ t, visit n s = .ok t := by
          cases h1 with
          | declares h1 _ => exact ⟨_, (visit_iff h).mpr (.inl ⟨_, h1, rfl⟩)⟩
          | skips h1 _ => exact ⟨_, (visit_iff h).mpr (.inr ⟨h1, rfl⟩)⟩
        obtain ⟨t, ht⟩ := this
        rw [hv] at ht; cases ht
    | ok t =>
      have hvi := (visit_iff h).mp hv
      have hpl : t.place = next n s.place := by rcases hvi with ⟨d, _, rfl⟩ | ⟨_, rfl⟩ <;> rfl
      have hty : t.typos = s.typos := by rcases hvi with ⟨d, _, rfl⟩ | ⟨_, rfl⟩ <;> rfl
      show ((lookahead ns (if mistake n then { t with typos := t.typos ++ [n.text] } else t)).map _ = _ ↔ _)
      rw [ih (before := before ++ [n]) (by split <;> rw [show _ = next n s.place from hpl] <;> exact hn)]
      have split_ty : ∀ ts, (if mistake n then { t with typos := t.typos ++ [n.text] } else t : State).typos ++ ts =
          s.typos ++ ((if mistake n then [n.text] else []) ++ ts) := by
        intro ts; split <;> simp [hty]
      have split_d : (if mistake n then { t with typos := t.typos ++ [n.text] } else t : State).decls = t.decls := by split <;> rfl
      rw [split_d]
      constructor
      · rintro ⟨ds, ts, g1, g2, rfl, rfl⟩
        have g2' : Mistakes (n :: ns) ((if mistake n then [n.text] else []) ++ ts) := by
          by_cases hm : mistake n = true
          · rw [if_pos hm]; exact .mistaken (mistake_iff.mp hm) g2
          · rw [if_neg hm]; exact .fine (fun h => hm (mistake_iff.mpr h)) g2
        rcases hvi with ⟨d, hd, rfl⟩ | ⟨hd, rfl⟩
        · exact ⟨d :: ds, _, .declares hd g1, g2', by simp, split_ty ts⟩
        · exact ⟨ds, _, .skips hd g1, g2', by simp, split_ty ts⟩
      · rintro ⟨ds, ts, g1, g2, rfl, rfl⟩
        obtain ⟨ts', g2', rfl⟩ : ∃ ts', Mistakes ns ts' ∧ ts = (if mistake n then [n.text] else []) ++ ts' := by
          cases g2 with
          | mistaken h1 h2 => exact ⟨_, h2, by rw [if_pos (mistake_iff.mpr h1)]; rfl⟩
          | fine h1 h2 => exact ⟨_, h2, by rw [if_neg (fun h => h1 (mistake_iff.mp h))]; rfl⟩
        cases g1 with
        | declares h1 h2 =>
          have e := (visit_iff h).mpr (.inl ⟨_, h1, rfl⟩)
          rw [hv] at e; cases e
          exact ⟨_, ts', h2, g2', by simp, (split_ty ts').symm⟩
        | skips h1 h2 =>
          have e := (visit_iff h).mpr (.inr ⟨h1, rfl⟩)
          rw [hv] at e; cases e
          exact ⟨_, ts', h2, g2', by simp, (split_ty ts').symm⟩

theorem declarations_iff {ns : List Node} {ds : List Decl} {ts : List Bytes} :
    declarations ns = .ok (ds, ts) ↔ Declarations [] ns ds ∧ Mistakes ns ts := by
  unfold declarations
  rw [lookahead_iff at_start]
  constructor
  · rintro ⟨x, y, h1, h2, rfl, rfl⟩; exact ⟨h1, h2⟩
  · rintro ⟨h1, h2⟩; exact ⟨_, _, h1, h2, rfl, rfl⟩

end Verif.Lookahead
