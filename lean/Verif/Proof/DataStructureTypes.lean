import Verif.Proof.DataStructure
import Verif.Props.C10
/-!
# From MSON to API Elements (proofs about types and texts)
-/
namespace Verif.DataStructure
open Verif Verif.Refract Verif.Registry Verif.Spec Verif.Spec.DataStructure
open Verif.NamedTypes (BaseName TypeName)
open Verif.Mson (Value TypeDef TypeSpec ValueDef PropertyName)

/-! ## Types -/

theorem rootFrom_of_rootOf (r : Reg) (k : Bytes) (p : Elem) (h : RootOf r k p) : rootFrom r k = some (some p) := by
  induction h with
  | here k p h hs =>
    rw [rootFrom, h]
    simp only
    rcases hs with hs | hs | hs
    · rw [if_pos ((isReserved_iff _).2 hs)]
    · split
      · rfl
      · rw [hs]
    · split
      · rfl
      · split
        · rfl
        · rfl
  | up k k' p h _ ih =>
    obtain ⟨hne, hres, hsome, q, hq, rfl⟩ := h
    rw [rootFrom, hq]
    simp only
    rw [if_neg (fun a => hres ((isReserved_iff _).1 a))]
    obtain ⟨x, hx⟩ := Option.isSome_iff_exists.1 hsome
    rw [hx]
    simp only
    rw [if_neg hne, ih]

theorem rootFrom_sound (r : Reg) (k : Bytes) (res : Option Elem) (h : rootFrom r k = some res) (p : Elem) (hp : res = some p) :
    RootOf r k p := by
  revert p
  refine rootFrom.partial_correctness r (motive := fun k res => ∀ p, res = some p → RootOf r k p) ?_ k res h
  intro f ih k res hbody p hp
  cases hf : StdMap.find r k with
  | none => rw [hf] at hbody; simp only [Option.some.injEq] at hbody; rw [← hbody] at hp; cases hp
  | some q =>
    rw [hf] at hbody
    simp only at hbody
    by_cases hr : isReserved q.name = true
    · rw [if_pos hr] at hbody
      subst hp; simp only [Option.some.injEq] at hbody; subst hbody
      exact .here k q hf (.inl ((isReserved_iff _).1 hr))
    · rw [if_neg hr] at hbody
      cases hn : StdMap.find r q.name with
      | none => rw [hn] at hbody; subst hp; simp only [Option.some.injEq] at hbody; subst hbody; exact .here k q hf (.inr (.inl hn))
      | some x =>
        rw [hn] at hbody
        simp only at hbody
        by_cases hk : q.name = k
        · rw [if_pos hk] at hbody; subst hp; simp only [Option.some.injEq] at hbody; subst hbody; exact .here k q hf (.inr (.inr hk))
        · rw [if_neg hk] at hbody
          exact .up k q.name p ⟨hk, fun a => hr ((isReserved_iff _).2 a), by rw [hn]; rfl, q, hf, rfl⟩ (ih _ _ hbody p hp)

theorem rootFrom_iff (r : Reg) (k : Bytes) (res : Option Elem) (h : rootFrom r k = some res) (p : Elem) : RootOf r k p ↔ res = some p :=
  ⟨fun hp => by have := rootFrom_of_rootOf r k p hp; rw [h] at this; exact Option.some.inj this, rootFrom_sound r k res h p⟩

theorem baseOfKind_iff (e : Elem) (t : BaseName) : baseOfKind e.kind = some t ↔ Is t e := by
  cases e with
  | mk n m a h d =>
    cases d <;> cases t <;> simp [baseOfKind, Elem.kind, Data.kind, Is, Elem.data]

theorem kind_of_is (e : Elem) (t : BaseName) (h : Is t e) : e.kind = kindOf t := by
  cases e with
  | mk n m a h' d =>
    cases t <;> obtain ⟨x, hx⟩ := h <;> simp only [Elem.data] at hx <;> subst hx <;> rfl
theorem is_of_kind (e : Elem) (t : BaseName) (h : e.kind = kindOf t) : Is t e := by
  rw [← baseOfKind_iff, h]; cases t <;> rfl
theorem is_iff (e : Elem) (t : BaseName) : Is t e ↔ e.kind = kindOf t := ⟨kind_of_is e t, is_of_kind e t⟩

/-- What a type name stands for. -/
theorem typeOfName_ok (r : Reg) (n : Bytes) (o : Option BaseName) (h : (typeOfName r n).result = .ok o) (t : BaseName) :
    o = some t ↔ ∃ p, RootOf r n p ∧ Is t p := by
  simp only [typeOfName, W.bind_ok, W.ends_ok, W.pure_result, Except.ok.injEq] at h
  obtain ⟨res, hres, rfl⟩ := h
  have := rootFrom_iff r n res hres
  constructor
  · intro ht
    cases res with
    | none => cases ht
    | some p => exact ⟨p, (this p).2 rfl, (baseOfKind_iff p t).1 ht⟩
  · rintro ⟨p, hp, ht⟩
    rw [(this p).1 hp]
    exact (baseOfKind_iff p t).2 ht

theorem resolveType_ok (r : Reg) (spec : TypeSpec) (o : Option BaseName) (h : (resolveType r spec).result = .ok o) (t : BaseName) :
    o = some t ↔ StandsFor r spec.name t := by
  unfold resolveType at h
  unfold StandsFor
  cases hb : spec.name.base with
  | some b =>
    rw [hb] at h
    cases h
    simp
  | none =>
    rw [hb] at h
    simp only at h
    split at h
    · rename_i he
      cases h
      have : spec.name.literal = [] := by simpa using he
      simp [this]
    · rename_i he
      have : spec.name.literal ≠ [] := by simpa using he
      rw [typeOfName_ok r _ o h t]
      simp [this]

theorem resolveType_none (r : Reg) (spec : TypeSpec) (o : Option BaseName) (h : (resolveType r spec).result = .ok o) :
    o = none ↔ ∀ t, ¬ StandsFor r spec.name t := by
  cases o with
  | none => simp only [true_iff]; intro t ht; have := (resolveType_ok r spec none h t).2 ht; cases this
  | some t => simp only [reduceCtorEq, false_iff]; intro hn; exact hn t ((resolveType_ok r spec _ h t).1 rfl)

theorem resolveType_warnings (r : Reg) (spec : TypeSpec) : (resolveType r spec).warnings = [] := by
  unfold resolveType typeOfName W.bind
  split
  · rfl
  · split
    · rfl
    · split <;> simp [W.ends_warnings]

theorem typeOfName_warnings (r : Reg) (n : Bytes) : (typeOfName r n).warnings = [] := by
  unfold typeOfName W.bind
  split <;> simp [W.ends_warnings]

theorem hasMembers_iff (ss : List Section) : hasMembers ss = true ↔ ∃ s ∈ ss, s.klass = .members := by
  unfold hasMembers
  rw [List.any_eq_true]
  constructor
  · rintro ⟨s, hs, h⟩; refine ⟨s, hs, ?_⟩; cases s; simpa [Section.klass] using h
  · rintro ⟨s, hs, h⟩; refine ⟨s, hs, ?_⟩; cases s; simpa [Section.klass] using h

theorem memberType_is (r : Reg) (nested : BaseName) (m : Member) (o : Option BaseName)
    (h : (resolveType r m.definition.type.spec).result = .ok o) : MemberIs r nested m (memberType o nested m.definition m.sections) := by
  unfold memberType
  cases o with
  | some t => exact .typed ((resolveType_ok r _ _ h t).1 rfl)
  | none =>
    have hn := (resolveType_none r _ _ h).1 rfl
    simp only
    split
    · rename_i hv; exact .several hn hv
    · rename_i hv
      split
      · rename_i hx
        simp only [Bool.or_eq_true, Bool.not_eq_true', List.isEmpty_eq_false_iff, hasMembers_iff] at hx
        exact .structured hn (by omega) hx
      · rename_i hx
        simp only [Bool.or_eq_true, Bool.not_eq_true', List.isEmpty_eq_false_iff, hasMembers_iff, not_or, not_exists, not_and,
          Decidable.not_not] at hx
        exact .plain hn (by omega) hx.1 hx.2

theorem standsFor_unique {r : Reg} {n : TypeName} {t t' : BaseName} (h : StandsFor r n t) (h' : StandsFor r n t') : t = t' := by
  rcases h with h | ⟨h, _, p, hp, ht⟩ <;> rcases h' with h' | ⟨h', _, p', hp', ht'⟩
  · rw [h] at h'; cases h'; rfl
  · rw [h] at h'; cases h'
  · rw [h] at h'; cases h'
  · have a := rootFrom_of_rootOf r _ p hp
    have b := rootFrom_of_rootOf r _ p' hp'
    rw [a] at b
    cases b
    rw [← baseOfKind_iff] at ht ht'
    rw [ht] at ht'; cases ht'; rfl

theorem memberIs_unique {r : Reg} {nested : BaseName} {m : Member} {t t' : BaseName} (h : MemberIs r nested m t)
    (h' : MemberIs r nested m t') : t = t' := by
  cases h <;> cases h'
  case typed.typed a b => exact standsFor_unique a b
  case typed.several a b _ => exact absurd a (b _)
  case typed.structured a b _ _ => exact absurd a (b _)
  case typed.plain a b _ _ _ => exact absurd a (b _)
  case several.typed a _ b => exact absurd b (a _)
  case structured.typed a _ _ b => exact absurd b (a _)
  case plain.typed a _ _ _ b => exact absurd b (a _)
  case several.several => rfl
  case structured.structured => rfl
  case plain.plain => rfl
  case several.structured => omega
  case several.plain => omega
  case structured.several => omega
  case plain.several => omega
  case structured.plain a c hl b hn hm =>
    rcases c with c | ⟨s, hs, c⟩
    · exact absurd hn c
    · exact absurd c (hm s hs)
  case plain.structured a hn hm b c d =>
    rcases d with d | ⟨s, hs, d⟩
    · exact absurd hn d
    · exact absurd d (hm s hs)

/-! ## Texts -/

theorem isPrimitive_iff (t : BaseName) : isPrimitive t = true ↔ Primitive t := by cases t <;> simp [isPrimitive, Primitive]

theorem kind_name (t : BaseName) : (kindOf t).name = word t := by cases t <;> rfl
theorem makeEmpty_eq (t : BaseName) : makeEmpty (kindOf t) = emptyOf t := by cases t <;> rfl

theorem literalTo_reads (t : BaseName) (h : Primitive t) (s : Bytes) :
    Reads t s (if (literalTo t s).1 then some (literalTo t s).2 else none) ∧
    ((literalTo t s).1 = false → (literalTo t s).2 = fallback t) ∧ (literalTo t s).2.kind = kindOf t := by
  rcases h with rfl | rfl | rfl
  · simp only [literalTo, Number.literalToBoolean]
    by_cases h1 : s = str "true"
    · subst h1; simp only [decide_true, Bool.true_or, if_true]; exact ⟨.yes, by simp, rfl⟩
    · by_cases h2 : s = str "false"
      · subst h2
        have : (str "false" = str "true") = False := by decide
        simp only [this, decide_false, decide_true, Bool.or_true, if_true]; exact ⟨.no, by simp, rfl⟩
      · simp only [h1, h2, decide_false, Bool.or_false]; exact ⟨.noBoolean h1 h2, fun _ => rfl, rfl⟩
  · simp only [literalTo, Number.literalToString]
    by_cases h1 : s = []
    · subst h1; exact ⟨.noString, fun _ => rfl, rfl⟩
    · have : s.isEmpty = false := by simpa using h1
      simp only [this, Bool.not_false, if_true]; exact ⟨.string h1, by simp, rfl⟩
  · have key := Props.C10_literal_to_number s
    cases hn : Number.literalToNumber s with
    | none =>
      have hl : literalTo .number s = (false, .number (str "0")) := by simp only [literalTo]; rw [hn]
      rw [hl]
      refine ⟨.noNumber ?_, fun _ => rfl, rfl⟩
      intro n w hj hw he
      have := (key n).2 ⟨hj, w, he, hw⟩
      rw [hn] at this; cases this
    | some n =>
      obtain ⟨hj, w, he, hw⟩ := (key n).1 hn
      have hl : literalTo .number s = (true, .number n) := by simp only [literalTo]; rw [hn]
      rw [hl]
      refine ⟨?_, by simp, rfl⟩
      rw [he]
      exact .number hj hw

/-- A text is read in one way only. -/
theorem reads_unique {t : BaseName} {s : Bytes} {a b : Option Data} (ha : Reads t s a) (hb : Reads t s b) : a = b := by
  have number : ∀ n w n' w', JsonNumber n → JsonNumber n' → (∀ c ∈ w, IsSpace c) → (∀ c ∈ w', IsSpace c) → n ++ w = n' ++ w' → n = n' := by
    intro n w n' w' hn hn' hw hw' he
    have h1 := (Props.C10_literal_to_number (n ++ w) n).2 ⟨hn, w, rfl, hw⟩
    have h2 := (Props.C10_literal_to_number (n ++ w) n').2 ⟨hn', w', he, hw'⟩
    rw [h1] at h2; exact Option.some.inj h2
  generalize hs : s = s' at hb
  cases ha <;> cases hb
  case string.string => rw [hs]
  case string.noString h => exact absurd hs h
  case noString.string h => exact absurd hs.symm h
  case noString.noString => rfl
  case number.number n w hn hw n' w' hn' hw' => rw [number n w n' w' hn hn' hw hw' hs]
  case number.noNumber n w hn hw h => exact absurd hs.symm (h n w hn hw)
  case noNumber.number h n w hn hw => exact absurd hs (h n w hn hw)
  case noNumber.noNumber => rfl
  case yes.yes => rfl
  case yes.no => exact absurd hs (by decide)
  case yes.noBoolean h1 h2 => exact absurd hs.symm h1
  case no.yes => exact absurd hs (by decide)
  case no.no => rfl
  case no.noBoolean h1 h2 => exact absurd hs.symm h2
  case noBoolean.yes h1 h2 => exact absurd hs h1
  case noBoolean.no h1 h2 => exact absurd hs h2
  case noBoolean.noBoolean => rfl

theorem infoToElement_entry (t : BaseName) (h : Primitive t) (i : Info) : Entry t i.text (infoToElement t i) := by
  have hr := literalTo_reads t h i.text
  unfold infoToElement
  rw [if_pos ((isPrimitive_iff t).2 h)]
  cases hb : (literalTo t i.text).1 with
  | true =>
    rw [hb] at hr
    simp only [if_true] at hr ⊢
    have : makeElement (literalTo t i.text).2 = .mk (word t) [] [] true (literalTo t i.text).2 := by
      rw [makeElement, hr.2.2, kind_name]
    rw [this]; exact .good hr.1
  | false =>
    rw [hb] at hr
    simp only [Bool.false_eq_true, if_false] at hr ⊢
    rw [makeEmpty_eq]; exact .bad hr.1

theorem validity_complaints (t : BaseName) (h : Primitive t) (l : List Info) :
    Complaints t (l.map (·.text)) (l.flatMap (validity t)) := by
  induction l with
  | nil => exact .nil
  | cons i r ih =>
    have hr := literalTo_reads t h i.text
    simp only [List.map_cons, List.flatMap_cons]
    cases hb : (literalTo t i.text).1 with
    | true =>
      rw [hb] at hr
      have : validity t i = [] := by
        rcases h with rfl | rfl | rfl <;> simp [validity, hb]
      rw [this]
      exact .good (by simpa using hr.1) ih
    | false =>
      rw [hb] at hr
      have : validity t i = complaint t := by
        rcases h with rfl | rfl | rfl <;> simp [validity, hb, complaint]
      rw [this]
      exact .bad (by simpa using hr.1) ih

/-! ## The sections of a type -/

theorem sections_primitive (r : Reg) (t nested : BaseName) (h : Primitive t) : ∀ (ss : List Section) (d d' : Parts),
    (convertSections r t nested ss d).result = .ok d' →
    d' = { d with
      samples := d.samples ++ (filled .sample ss).map fun s => { text := s.value, map := s.valueMap }
      defaults := d.defaults ++ (filled .default ss).map fun s => { text := s.value, map := s.valueMap }
      descriptions := d.descriptions ++ blocks ss } ∧ (convertSections r t nested ss d).warnings = [] ∧ ∀ s ∈ ss, s.klass ≠ .undefined
  | [], d, d', hd => by
    simp only [convertSections] at hd ⊢
    cases hd
    simp [filled, blocks]
  | .mk k de v es dm vm :: rest, d, d', hd => by
    have hp := (isPrimitive_iff t).2 h
    simp only [convertSections, W.bind_ok] at hd ⊢
    obtain ⟨d1, h1, h2⟩ := hd
    have ih := sections_primitive r t nested h rest d1 d' h2
    rw [W.bind_warnings _ _ d1 h1, ih.2.1]
    simp only [convertSection] at h1 ⊢
    cases k with
    | undefined => simp [addSection] at h1
    | description =>
      simp only [addSection] at h1 ⊢
      cases h1
      refine ⟨?_, rfl, ?_⟩
      · rw [ih.1]; simp [filled, blocks, Section.klass, Section.description, Section.descriptionMap]
      · intro s hs; rcases List.mem_cons.1 hs with rfl | hs
        · simp [Section.klass]
        · exact ih.2.2 s hs
    | members =>
      simp only [addSection, hp, if_true] at h1 ⊢
      cases h1
      refine ⟨?_, rfl, ?_⟩
      · rw [ih.1]; simp [filled, blocks, Section.klass]
      · intro s hs; rcases List.mem_cons.1 hs with rfl | hs
        · simp [Section.klass]
        · exact ih.2.2 s hs
    | sample =>
      have ff : filled .sample (.mk .sample de v es dm vm :: rest) = (if v.isEmpty && es.isEmpty then [] else [Section.mk .sample de v es dm vm]) ++ filled .sample rest ∧
          filled .default (.mk .sample de v es dm vm :: rest) = filled .default rest ∧ blocks (.mk .sample de v es dm vm :: rest) = blocks rest := by
        refine ⟨?_, by simp [filled, Section.klass], by simp [blocks, Section.klass]⟩
        simp only [filled, List.filter_cons, Section.klass, Section.value, Section.elements]
        cases v <;> cases es <;> simp
      rw [ff.1, ff.2.1, ff.2.2]
      simp only [addSection, fetchSection, hp, if_true] at h1 ⊢
      cases hc : (v.isEmpty && es.isEmpty) with
      | true =>
        rw [hc] at h1
        simp only [if_true] at h1 ⊢
        cases h1
        refine ⟨by rw [ih.1]; simp, rfl, ?_⟩
        intro s hs; rcases List.mem_cons.1 hs with rfl | hs
        · simp [Section.klass]
        · exact ih.2.2 s hs
      | false =>
        rw [hc] at h1
        simp only [Bool.false_eq_true, if_false, W.bind_ok, W.pure_result, Except.ok.injEq] at h1 ⊢
        obtain ⟨i, hi, rfl⟩ := h1
        subst hi
        refine ⟨by rw [ih.1]; simp [Section.value, Section.valueMap], rfl, ?_⟩
        intro s hs; rcases List.mem_cons.1 hs with rfl | hs
        · simp [Section.klass]
        · exact ih.2.2 s hs
    | default =>
      have ff : filled .default (.mk .default de v es dm vm :: rest) = (if v.isEmpty && es.isEmpty then [] else [Section.mk .default de v es dm vm]) ++ filled .default rest ∧
          filled .sample (.mk .default de v es dm vm :: rest) = filled .sample rest ∧ blocks (.mk .default de v es dm vm :: rest) = blocks rest := by
        refine ⟨?_, by simp [filled, Section.klass], by simp [blocks, Section.klass]⟩
        simp only [filled, List.filter_cons, Section.klass, Section.value, Section.elements]
        cases v <;> cases es <;> simp
      rw [ff.1, ff.2.1, ff.2.2]
      simp only [addSection, fetchSection, hp, if_true] at h1 ⊢
      cases hc : (v.isEmpty && es.isEmpty) with
      | true =>
        rw [hc] at h1
        simp only [if_true] at h1 ⊢
        cases h1
        refine ⟨by rw [ih.1]; simp, rfl, ?_⟩
        intro s hs; rcases List.mem_cons.1 hs with rfl | hs
        · simp [Section.klass]
        · exact ih.2.2 s hs
      | false =>
        rw [hc] at h1
        simp only [Bool.false_eq_true, if_false, W.bind_ok, W.pure_result, Except.ok.injEq] at h1 ⊢
        obtain ⟨i, hi, rfl⟩ := h1
        subst hi
        refine ⟨by rw [ih.1]; simp [Section.value, Section.valueMap], rfl, ?_⟩
        intro s hs; rcases List.mem_cons.1 hs with rfl | hs
        · simp [Section.klass]
        · exact ih.2.2 s hs

end Verif.DataStructure
