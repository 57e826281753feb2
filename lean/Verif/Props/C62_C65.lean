import Verif.Proof.Mson
/-!
# C62-C65: types and values in MSON
-/
namespace Verif.Props
open Verif Verif.Text Verif.Spec Verif.Spec.Mson Verif.Mson
open Verif.NamedTypes (TypeName)

/-! ## C62: attributes of a type -/

/-- C62: the flags of a type are exactly the words for flags among its attributes, in any order and however often; all other bits are
clear. -/
theorem C62_flags (c : Context) (attributes : List Bytes) (k : Nat) :
    (parseTypeDefinition c attributes).1.attributes.testBit k = true ↔ ∃ a ∈ attributes, words[k]? = some a := by
  obtain ⟨n, h1, h2, _⟩ := definition_spec c attributes
  rw [h1]
  simp [h2]

/-- C62: the first attribute that is no such word specifies the type; without one there is no type. -/
theorem C62_type (c : Context) (attributes : List Bytes) (h0 : ∀ a ∈ attributes, (0 : UInt8) ∉ a) :
    (others attributes = [] → (parseTypeDefinition c attributes).1.spec = ⟨noType, []⟩) ∧
    (∀ a rest, others attributes = a :: rest → Denotes a (parseTypeDefinition c attributes).1.spec) := by
  obtain ⟨n, h1, _⟩ := definition_spec c attributes
  rw [h1]
  constructor
  · intro h; simp only [specOf, h, List.head?_nil]; rfl
  · intro a rest h
    have ha : a ∈ attributes := by
      have : a ∈ others attributes := by simp [h]
      exact (List.mem_filter.1 this).1
    simp only [specOf, h, List.head?_cons]
    exact (denotes_iff (h0 a ha) _).1 rfl

/-- C62: each further attribute that is no such word is reported; nested types are reported if the type is neither an array nor an
enumeration.  There are no other warnings. -/
theorem C62_warnings (c : Context) (attributes : List Bytes) :
    let td := (parseTypeDefinition c attributes).1
    (parseTypeDefinition c attributes).2.2.count .unrecognized = (others attributes).length - 1 ∧
    (parseTypeDefinition c attributes).2.2.count .nestedTypes =
      (if td.spec.nested ≠ [] ∧ td.base ≠ .value ∧ td.base ≠ .implicitValue then 1 else 0) := by
  obtain ⟨n, _, _, _, h4⟩ := definition_spec c attributes
  simp only [h4, List.count_append, List.count_replicate]
  constructor
  · simp
    split <;> simp
  · by_cases h : (parseTypeDefinition c attributes).1.spec.nested ≠ [] ∧ (parseTypeDefinition c attributes).1.base ≠ .value ∧
        (parseTypeDefinition c attributes).1.base ≠ .implicitValue
    · simp [h]
    · rw [if_neg h]
      have h' : ¬ ((parseTypeDefinition c attributes).1.base ≠ .value ∧ (parseTypeDefinition c attributes).1.base ≠ .implicitValue ∧
          (parseTypeDefinition c attributes).1.spec.nested ≠ []) := fun h' => h ⟨h'.2.2, h'.1, h'.2.1⟩
      rw [if_neg h']
      simp

/-- No named types. -/
def noNames : Context := ⟨[], [], [], none⟩

example : (parseTypeDefinition noNames [str "fixed", str "array[string]", str "required", str "x", str "fixed"]).1 =
    ⟨.value, ⟨⟨some .array, [], false⟩, [⟨some .string, [], false⟩]⟩, 5⟩ ∧
    (parseTypeDefinition noNames [str "fixed", str "array[string]", str "required", str "x", str "fixed"]).2.2 = [.unrecognized] := by
  decide +kernel

/-! ## C63: type specifications -/

/-- C63: a text of a type specification - `name`, `name[a, b]` with names or links as nested types, or a link - gives the type and the
nested types in their order. -/
theorem C63_specification (s : Bytes) (h0 : (0 : UInt8) ∉ s) (sp : TypeSpec) : parseTypeSpecification s = sp ↔ Denotes s sp :=
  denotes_iff h0 sp

/-- C63: in particular, for names without brackets and commas that are no links. -/
theorem C63_list (name : Bytes) (items : List Bytes) (h : name ≠ []) (hb : Bare name) (hn : asc '[' ∉ name)
    (hi : ∀ t ∈ items, t ≠ [] ∧ Bare t ∧ asc '[' ∉ t ∧ asc ',' ∉ t ∧ asc ']' ∉ t) (h1 : items ≠ []) :
    parseTypeSpecification (name ++ asc '[' :: (List.intersperse (str ", ") items).flatten ++ [asc ']']) =
      ⟨parseTypeName name, items.map parseTypeName⟩ := by
  rw [spec_plain (by
    cases name with
    | nil => exact absurd rfl h
    | cons c r => simp; rintro rfl; exact hn (by simp))]
  have hpart : ∀ t : Bytes, t ≠ [] → Bare t → Part t [parseTypeName t] := fun t h0 hb =>
    .name t t _ ⟨[], [], by simp, by simp [Blank], by simp [Blank], hb⟩ h0 (typeName_names t)
  -- the list, after a blank or not
  have key : ∀ items : List Bytes, items ≠ [] → (∀ t ∈ items, t ≠ [] ∧ Bare t ∧ asc '[' ∉ t ∧ asc ',' ∉ t ∧ asc ']' ∉ t) →
      ∀ pre : Bytes, (pre = [] ∨ pre = [asc ' ']) →
      Nested (pre ++ (List.intersperse (str ", ") items).flatten ++ [asc ']']) (items.map parseTypeName) := by
    intro items
    induction items with
    | nil => intro h; exact absurd rfl h
    | cons t r ih =>
      intro _ hi pre hp
      obtain ⟨h1, h2, h3, h4, h5⟩ := hi t (by simp)
      have np : ∀ c, c ≠ asc ' ' → c ∉ pre := by
        intro c hc hm
        rcases hp with rfl | rfl
        · simp at hm
        · simp at hm; exact hc hm
      have bp : Blank pre := by
        rcases hp with rfl | rfl
        · simp [Blank]
        · intro c hc; simp at hc; subst hc; unfold White; decide
      cases r with
      | nil =>
        refine .last _ _ ?_
        have hbare : Bare (t ++ [asc ']']) := by
          constructor
          · intro c hc
            apply h2.1
            cases t with
            | nil => exact absurd rfl h1
            | cons x t => simpa using hc
          · intro c hc
            simp at hc; subst hc
            unfold White; decide
        have := Last.closed (pre ++ t ++ [asc ']']) t t (parseTypeName t) ?_ ?_ ⟨pre, [], by simp, bp, by simp [Blank], hbare⟩
          ⟨[], [], by simp, by simp [Blank], by simp [Blank], h2⟩ (typeName_names t)
        · simpa using this
        · simp only [List.mem_append, List.mem_singleton, not_or]
          exact ⟨⟨np _ (by decide), h3⟩, by decide⟩
        · simp only [List.mem_append, List.mem_singleton, not_or]
          exact ⟨⟨np _ (by decide), h4⟩, by decide⟩
      | cons u r =>
        have := ih (by simp) (fun t ht => hi t (by simp [ht])) [asc ' '] (.inr rfl)
        have := Nested.name (pre ++ t) _ [parseTypeName t] _ ?_ ?_ ?_ this
        · have e : str ", " = [asc ',', asc ' '] := by decide
          simp only [List.map_cons, List.cons_append, List.nil_append, List.append_assoc] at this ⊢
          simpa [List.intersperse, e] using this
        · simp only [List.mem_append, not_or]; exact ⟨np _ (by decide), h3⟩
        · simp only [List.mem_append, not_or]; exact ⟨np _ (by decide), h4⟩
        · exact .name _ t _ ⟨pre, [], by simp, bp, by simp [Blank], h2⟩ h1 (typeName_names t)
  have := Specifies.nested name _ [parseTypeName name] _ hn (hpart name h hb) (key items h1 hi [] (.inl rfl))
  simpa using this

example : parseTypeSpecification (str "array[A, [B](#b), string]") =
    ⟨⟨some .array, [], false⟩, [⟨none, str "A", false⟩, ⟨none, str "B", false⟩, ⟨some .string, [], false⟩]⟩ := by decide +kernel

example : parseTypeSpecification (str "[A](#a)") = ⟨⟨none, str "A", false⟩, []⟩ := by decide +kernel

/-- C63: a name before a bracket inside the list is lost, without any message. -/
theorem C63_inner_refuted : parseTypeSpecification (str "array[A[B]]") =
    ⟨⟨some .array, [], false⟩, [⟨none, str "B", false⟩]⟩ := by decide +kernel

/-- C63: a comma in the destination of a link separates, and the rest of the destination becomes a nested type. -/
theorem C63_destination_refuted : parseTypeSpecification (str "array[[A](x,y)]") =
    ⟨⟨some .array, [], false⟩, [⟨none, str "A", false⟩, ⟨none, str "y)", false⟩]⟩ := by decide +kernel

/-! ## C64: values and names -/

/-- C64: the value a text stands for: without emphasis, which marks a variable, and without backticks. -/
theorem C64_value (s : Bytes) (v : Value) : parseValue s = v ↔ Stands s v := stands_iff s v

/-- C64: the type a text names: one of the six base types, or a named type. -/
theorem C64_type (s : Bytes) (ty : TypeName) : parseTypeName s = ty ↔ Names s ty := names_iff s ty

/-- C64: a text without `*`, `_` and backticks is its own value. -/
theorem C64_plain (s : Bytes) (h : ∀ c ∈ s, c ∉ str "*_`") : parseValue s = ⟨s, false⟩ := by
  have hb : ∀ c, c ∈ str "*_`" → ¬ Between c s := fun c hc hs => h c (List.mem_of_mem_head? hs.1) hc
  rw [stands_iff]
  refine ⟨s, false, .plain s (hb _ (by decide)) (hb _ (by decide)) (hb _ (by decide)), .inr ⟨?_, rfl⟩⟩
  rintro rfl
  exact h (asc '*') (by decide) (by decide)

/-- C64: a text without the character, between any number of `*` or `_`, is a variable of that name. -/
theorem C64_variable (c : UInt8) (hc : c = asc '*' ∨ c = asc '_') (k : Nat) (hk : 0 < k) (t : Bytes) (ht : t ≠ []) (h : c ∉ t)
    (h1 : t ≠ str "*") : parseValue (List.replicate k c ++ t ++ List.replicate k c) = ⟨t, true⟩ := by
  obtain ⟨k, rfl⟩ : ∃ j, k = j + 1 := ⟨k - 1, by omega⟩
  rw [stands_iff]
  refine ⟨t, true, .emphasis c _ _ hc ⟨by simp [List.replicate_succ], ?_⟩ ⟨k + 1, [], hk, by simp, ?_, ht, ?_⟩, .inr ⟨h1, rfl⟩⟩
  · rw [getLast?_append_ne_nil _ (by simp)]; simp [List.replicate_succ']
  · intro hh; exact h (List.mem_of_mem_head? hh)
  · intro a b hab
    by_contra hl
    rw [Nat.not_le] at hl
    -- the run would begin inside `t`
    have : (t ++ List.replicate (k + 1) c ++ [])[a.length]? = some c := by
      rw [hab]; simp [List.replicate_succ]
    rw [List.append_nil, List.getElem?_append_left hl] at this
    exact h (List.mem_of_getElem? this)

/-- C64: a single `*` is a variable without a name, also in backticks. -/
theorem C64_wildcard : parseValue (str "*") = ⟨[], true⟩ ∧ parseValue (str "`*`") = ⟨[], true⟩ := by decide +kernel

example : parseValue (str "__id__") = ⟨str "id", true⟩ ∧ parseValue (str "`a, b`") = ⟨str "a, b", false⟩ ∧
    parseValue (str "snake_case") = ⟨str "snake_case", false⟩ := by decide +kernel

/-! ## C65: members -/

/-- C65: the kind of a member: that of its base type, or that of the named type. -/
theorem C65_kind (c : Context) (attributes : List Bytes) :
    (parseTypeDefinition c attributes).1.base = kindIn (StdMap.find c.bases) (parseTypeDefinition c attributes).1.spec.name := by
  obtain ⟨n, h1, _⟩ := definition_spec c attributes
  rw [h1]

/-- The calls for the nested types. -/
theorem refer_all (l : List TypeName) : ∀ c : Context, (∀ n ∈ l, n.literal ≠ []) → (c.context = [] ∨ (StdMap.find c.dep c.context).isSome) →
    ((l.foldl (fun c n => c.refer n.literal) c).error = none ↔ c.error = none ∧ ∀ n ∈ l, (StdMap.find c.dep n.literal).isSome) := by
  induction l with
  | nil => intro c _ _; simp
  | cons n l ih =>
    intro c hl hc
    obtain ⟨_, h2, h3, h4⟩ := refer_spec c n.literal
    rw [List.foldl_cons, ih _ (fun m hm => hl m (by simp [hm]))]
    · rw [h3]
      by_cases hn : (StdMap.find c.dep n.literal).isSome
      · rw [if_pos hn]
        simp only [List.mem_cons, forall_eq_or_imp, hn, true_and]
        refine and_congr_right fun _ => ?_
        refine forall₂_congr fun m hm => ?_
        rw [h4]
        constructor
        · rintro (h | ⟨_, h⟩)
          · exact h
          · rcases hc with hc | hc
            · exact absurd (h.trans hc) (hl m (by simp [hm]))
            · rw [h]; exact hc
        · exact .inl
      · rw [if_neg hn]
        simp [hn]
    · rw [h2]
      rcases hc with hc | hc
      · exact .inl hc
      · exact .inr ((h4 _).2 (.inl hc))

/-- C65: a member is an error exactly if it refers to a type that is not declared. -/
theorem C65_declared (c : Context) (sig : Signature.Signature) (hc : c.context = [] ∨ (StdMap.find c.dep c.context).isSome)
    (he : c.error = none) :
    (useSignature c sig).2.1.error = none ↔ ∀ name, References (useSignature c sig).1.type.spec name → (StdMap.find c.dep name).isSome := by
  obtain ⟨n, h1, _, h2, _⟩ := definition_spec c sig.attributes
  have hspec : (useSignature c sig).1.type.spec = (parseTypeDefinition c sig.attributes).1.spec := by
    unfold useSignature; dsimp only; split <;> rfl
  have hctx : (useSignature c sig).2.1 =
      (let spec := (parseTypeDefinition c sig.attributes).1.spec
       let c' := (parseTypeDefinition c sig.attributes).2.1
       if spec.name.base = some .array ∨ spec.name.base = some .enum then
        (spec.nested.filter fun n => n.literal ≠ [] ∧ n.isVariable = false).foldl (fun c n => c.refer n.literal) c'
       else if spec.name.base = none ∧ spec.name.literal ≠ [] ∧ spec.name.isVariable = false then c'.refer spec.name.literal
       else c') := by
    unfold useSignature; dsimp only; split <;> rfl
  rw [hspec, hctx]
  have hbase := C65_kind c sig.attributes
  generalize (parseTypeDefinition c sig.attributes).1 = td at *
  generalize (parseTypeDefinition c sig.attributes).2.1 = c' at *
  clear h1 hspec hctx
  dsimp only
  by_cases hb : td.spec.name.base = none
  · rw [if_neg (by simp [hb])]
    by_cases hr : td.spec.name.literal ≠ [] ∧ td.spec.name.isVariable = false
    · rw [if_pos ⟨hb, hr⟩]
      obtain ⟨_, _, e1, e2⟩ := refer_spec c td.spec.name.literal
      obtain ⟨_, _, e3, _⟩ := refer_spec c' td.spec.name.literal
      have hR : (∀ name, References td.spec name → (StdMap.find c.dep name).isSome) ↔ (StdMap.find c.dep td.spec.name.literal).isSome := by
        constructor
        · intro h; exact h _ (.inl ⟨hb, hr, rfl⟩)
        · rintro h name (⟨_, _, rfl⟩ | ⟨h', _⟩)
          · exact h
          · simp [hb] at h'
      rw [hR, e3]
      by_cases hu : td.base = .undefined
      · rw [if_pos ⟨hu, hr⟩] at h2
        subst h2
        by_cases hd : (StdMap.find c.dep td.spec.name.literal).isSome
        · have : (StdMap.find (c.refer td.spec.name.literal).dep td.spec.name.literal).isSome := (e2 _).2 (.inl hd)
          rw [if_pos this, e1, if_pos hd]; simp [he, hd]
        · constructor
          · intro h
            split at h
            · rw [e1, if_neg hd] at h; simp at h
            · simp at h
          · exact fun h => absurd h hd
      · rw [if_neg (fun h => hu h.1)] at h2
        subst h2
        split <;> simp_all
    · rw [if_neg (fun h => hr h.2)]
      rw [if_neg (fun h => hr h.2)] at h2
      subst h2
      simp only [he, true_iff]
      rintro name (⟨_, h, _⟩ | ⟨h', _⟩)
      · exact absurd h hr
      · simp [hb] at h'
  · have hu : td.base ≠ .undefined := by
      rw [hbase, kindIn]
      cases hq : td.spec.name.base with
      | none => exact absurd hq hb
      | some b => cases b <;> simp [kindOf]
    rw [if_neg (fun h => hu h.1)] at h2
    subst h2
    by_cases ha : td.spec.name.base = some .array ∨ td.spec.name.base = some .enum
    · rw [if_pos ha, refer_all _ _ (fun n hn => by have := (List.mem_filter.1 hn).2; simp at this; exact this.1) hc]
      simp only [he, true_and]
      constructor
      · rintro h name (⟨h', _⟩ | ⟨_, n, hn, hr, rfl⟩)
        · exact absurd h' hb
        · exact h n (List.mem_filter.2 ⟨hn, by simpa [Spec.Mson.Refers] using hr⟩)
      · intro h n hn
        obtain ⟨hn, hr⟩ := List.mem_filter.1 hn
        exact h _ (.inr ⟨ha, n, hn, by simpa [Spec.Mson.Refers] using hr, rfl⟩)
    · rw [if_neg ha, if_neg (fun h => hb h.1)]
      simp only [he, true_iff]
      rintro name (⟨h', _⟩ | ⟨h', _⟩)
      · exact absurd h' hb
      · exact absurd h' ha

/-- C65: the values of a member: each of those separated by commas, but the whole text as one value for a primitive type; several
values without a type make an array. -/
theorem C65_values (c : Context) (sig : Signature.Signature) :
    let td := (parseTypeDefinition c sig.attributes).1
    let v := (useSignature c sig).1
    (sig.values.length ≤ 1 → v = ⟨sig.values.map parseValue, td⟩) ∧
    (1 < sig.values.length → td.base = .primitive → v = ⟨[parseValue sig.value], td⟩) ∧
    (1 < sig.values.length → td.base = .undefined → v = ⟨sig.values.map parseValue, { td with base := .implicitValue }⟩) ∧
    (1 < sig.values.length → td.base ≠ .primitive → td.base ≠ .undefined → v = ⟨sig.values.map parseValue, td⟩) := by
  unfold useSignature
  dsimp only
  refine ⟨fun h => ?_, fun h h' => ?_, fun h h' => ?_, fun h h' h'' => ?_⟩
  · rw [if_neg (by omega), if_neg (by omega)]
  · rw [if_pos ⟨h, h'⟩]
  · rw [if_neg (by simp [h']), if_pos ⟨h, h'⟩]
  · rw [if_neg (by simp [h']), if_neg (by simp [h''])]

/-- C65: the name of a property without emphasis is its text without backticks; with emphasis it is a variable, whose text is read
like a value with a type. -/
theorem C65_property (c : Context) (line s : Bytes) :
    (¬ Between (asc '*') s → ¬ Between (asc '_') s → ∃ t, Raw s t false ∧ parsePropertyName c line s = .ok (⟨t, {}⟩, c, [])) ∧
    (∀ d t, (d = asc '*' ∨ d = asc '_') → Between d s → Enclosed d s t →
      ∀ sig, Signature.parseSignature { identifier := false, values := true, attributes := true, content := false } t = .ok sig →
        ∃ p, parsePropertyName c line s = .ok p ∧ p.1.literal = [] ∧
          p.1.isVariable.values = (if sig.value = [] then [] else [parseValue sig.value]) ∧
          (p.1.isVariable.type, p.2) = parseTypeDefinition c sig.attributes) := by
  constructor
  · intro h h'
    have hv : checkVariable s = false := by
      cases hq : checkVariable s with
      | false => rfl
      | true =>
        obtain ⟨d, rfl | rfl, hb⟩ := (checkVariable_iff s).1 hq
        · exact absurd hb h
        · exact absurd hb h'
    refine ⟨stripBackticks s, strip_raw s hv, ?_⟩
    unfold parsePropertyName; rw [hv]; rfl
  · intro d t hd hb he sig hsig
    have hv := (checkVariable_iff s).2 ⟨d, hd, hb⟩
    have ht : (retrieveEscaped s 0 true).1 = t := by
      cases s with
      | nil => simp [Between] at hb
      | cons x s =>
        have : x = d := by simpa [Between] using hb.1
        subst this
        obtain ⟨r1, r2⟩ := retrieve_strip x s
        by_cases hq : (retrieveEscaped (x :: s) 0 true).1 = []
        · exact absurd he ((r2 hq).1 t)
        · exact enclosed_unique (r1 hq) he
    have hne : t ≠ [] := by obtain ⟨_, _, _, _, _, h, _⟩ := he; exact h
    unfold parsePropertyName
    rw [hv]
    simp only [↓reduceIte, ht]
    rw [if_neg (by simpa using hne), hsig]
    refine ⟨_, rfl, rfl, ?_, rfl⟩
    simp

example : (useSignature noNames { value := str "1, 2", values := [str "1", str "2"], attributes := [str "string"] }).1.values =
    [⟨str "1, 2", false⟩] ∧
    (useSignature noNames { value := str "1, 2", values := [str "1", str "2"] }).1 =
      ⟨[⟨str "1", false⟩, ⟨str "2", false⟩], { base := .implicitValue }⟩ ∧
    (useSignature noNames { attributes := [str "A"] }).2.1.error = some (.undefinedType (str "A")) := by decide +kernel

end Verif.Props
