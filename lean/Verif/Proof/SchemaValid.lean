import Verif.Proof.SchemaForm
import Verif.Proof.Value
import Verif.Spec.Regular
/-! Generated bodies are valid against generated schemas. -/
namespace Verif.JsonSchema
open Verif Verif.Refract Verif.Spec
open Verif.JsonValue (bind_ok map_ok asArray_weight)

/-! ## Values in which no object has two members -/

mutual
def Thin : Value → Prop
  | .obj ms => ms.length ≤ 1 ∧ ThinM ms
  | .arr es => ThinE es
  | _ => True
termination_by structural v => v
def ThinM : List (Bytes × Value) → Prop
  | [] => True
  | p :: r => ThinP p ∧ ThinM r
termination_by structural v => v
def ThinP : Bytes × Value → Prop
  | (_, v) => Thin v
termination_by structural v => v
def ThinE : List Value → Prop
  | [] => True
  | v :: r => Thin v ∧ ThinE r
termination_by structural v => v
end

mutual
theorem thin_eq : ∀ (b a : Value), Thin b → So.eqV a b = true → a = b
  | .null, a, _, h => by cases a <;> simp [So.eqV] at h ⊢
  | .tru, a, _, h => by cases a <;> simp [So.eqV] at h ⊢
  | .fls, a, _, h => by cases a <;> simp [So.eqV] at h ⊢
  | .str s, a, _, h => by cases a <;> simp [So.eqV] at h ⊢; exact h
  | .num s, a, _, h => by cases a <;> simp [So.eqV] at h ⊢; exact h
  | .obj ns, a, ht, h => by
    cases a <;> simp [So.eqV] at h
    rename_i ms
    rw [thinM_eq ns ms ht.1 ht.2 h.1 h.2]
  | .arr fs, a, ht, h => by
    cases a <;> simp [So.eqV] at h
    rename_i es
    rw [thinE_eq fs es ht h.1 h.2]
termination_by structural b => b
theorem thinM_eq : ∀ (ns ms : List (Bytes × Value)), ns.length ≤ 1 → ThinM ns → ms.length = ns.length → So.eqMembers ms ns = true → ms = ns
  | [], ms, _, _, hl, _ => List.length_eq_zero_iff.1 hl
  | p :: [], ms, _, ht, hl, h => by
    obtain ⟨q, rfl⟩ := List.length_eq_one_iff.1 hl
    simp [So.eqMembers] at h
    rw [thinP_eq p q ht.1 h]
  | _ :: _ :: _, _, hl, _, _, _ => by simp at hl
termination_by structural b => b
theorem thinP_eq : ∀ (p q : Bytes × Value), ThinP p → So.eqMember q p = true → q = p
  | (k, v), (l, w), ht, h => by
    simp [So.eqMember] at h
    rw [h.1, thin_eq v w ht h.2]
termination_by structural b => b
theorem thinE_eq : ∀ (fs es : List Value), ThinE fs → es.length = fs.length → So.eqElems es fs = true → es = fs
  | [], es, _, hl, _ => List.length_eq_zero_iff.1 hl
  | f :: fs, [], _, hl, _ => by simp at hl
  | f :: fs, e :: es, ht, hl, h => by
    simp [So.eqElems] at h
    rw [thin_eq f e ht.1 h.1, thinE_eq fs es ht.2 (by simpa using hl) h.2]
termination_by structural b => b
end

theorem emplaceUniqueA_sub {c : List Value} {v x : Value} (h : x ∈ c) : x ∈ So.emplaceUniqueA c v := by
  unfold So.emplaceUniqueA; split
  · exact h
  · simp [h]

theorem emplaceUniqueA_thin {c : List Value} {v : Value} (ht : Thin v) : v ∈ So.emplaceUniqueA c v := by
  unfold So.emplaceUniqueA; split
  · rename_i h
    obtain ⟨e, he, h⟩ := List.any_eq_true.1 h
    rw [← thin_eq v e ht h]; exact he
  · simp

theorem emplaceAll_sub {x : Value} (vs : List Value) : ∀ c, x ∈ c → x ∈ emplaceAll c vs := by
  induction vs with
  | nil => intro c h; exact h
  | cons v vs ih => intro c h; exact ih _ (emplaceUniqueA_sub h)

theorem emplaceAll_thin {v : Value} (ht : Thin v) (vs : List Value) (hv : v ∈ vs) : ∀ c, v ∈ emplaceAll c vs := by
  induction vs with
  | nil => simp at hv
  | cons u vs ih =>
    intro c
    rcases List.mem_cons.1 hv with rfl | hv
    · exact emplaceAll_sub vs _ (emplaceUniqueA_thin ht)
    · exact ih hv _

mutual
theorem same_refl : ∀ v : Value, Same v v
  | .null => rfl
  | .tru => rfl
  | .fls => rfl
  | .str _ => rfl
  | .num _ => rfl
  | .obj ms => ⟨ms, ms, rfl, sameM_refl ms, .refl _⟩
  | .arr es => ⟨es, rfl, sameE_refl es⟩
termination_by structural v => v
theorem sameM_refl : ∀ ms : List (Bytes × Value), SameM ms ms
  | [] => rfl
  | p :: r => ⟨p, r, rfl, sameP_refl p, sameM_refl r⟩
termination_by structural v => v
theorem sameP_refl : ∀ p : Bytes × Value, SameP p p
  | (_, v) => ⟨rfl, same_refl v⟩
termination_by structural v => v
theorem sameE_refl : ∀ es : List Value, SameE es es
  | [] => rfl
  | v :: r => ⟨v, r, rfl, same_refl v, sameE_refl r⟩
termination_by structural v => v
end

/-! ## Validity -/

variable {re : Bytes → Bytes → Prop}

theorem validKeywords_iff {all ms : Entries} {v : Value} : ValidKeywords re all ms v ↔ ∀ p ∈ ms, ValidKeyword re all p v := by
  induction ms with
  | nil => simp [ValidKeywords]
  | cons p r ih => simp [ValidKeywords, ih]

theorem valid_obj {ms : Entries} {v : Value} : Valid re (.obj ms) v ↔ ∀ p ∈ ms, ValidKeyword re ms p v := by
  rw [Valid, validKeywords_iff]

theorem someValid_iff {ss : List Value} {v : Value} : SomeValid re ss v ↔ ∃ s ∈ ss, Valid re s v := by
  induction ss with
  | nil => simp [SomeValid]
  | cons p r ih => simp [SomeValid, ih]

theorem validPropertiesM_iff {ps : Entries} {v : Value} :
    ValidPropertiesM re ps v ↔ ∀ p ∈ ps, ∀ ms, v = .obj ms → ∀ m ∈ ms, m.1 = p.1 → Valid re p.2 m.2 := by
  induction ps with
  | nil => simp [ValidPropertiesM]
  | cons p r ih => obtain ⟨k, s⟩ := p; simp [ValidPropertiesM, ValidProperty, ih]

theorem valid_type {t : Bytes} {v : Value} (h : HasType t v) : Valid re (.obj [(str "type", .str t)]) v := by
  rw [valid_obj]; simp +decide [ValidKeyword, h]

theorem valid_const {x v : Value} (h : Same x v) : Valid re (.obj [(str "const", x)]) v := by
  rw [valid_obj]; simp +decide [ValidKeyword, h]

theorem valid_enum {vs : List Value} {v : Value} (h : ∃ e ∈ vs, Same e v) : Valid re (.obj [(str "enum", .arr vs)]) v := by
  rw [valid_obj]; simp +decide [ValidKeyword, h]

theorem valid_anyOf {ss : List Value} {v : Value} (h : ∃ s ∈ ss, Valid re s v) : Valid re (.obj [(str "anyOf", .arr ss)]) v := by
  rw [valid_obj]; simp +decide [ValidKeyword, ValidAny, someValid_iff, h]

theorem valid_addEnum {vs : List Value} {v : Value} (h : ∃ e ∈ vs, Same e v) : Valid re (.obj (addEnum [] vs)) v := by
  unfold addEnum
  split
  · simp at h; exact valid_const h
  · exact valid_enum h

theorem valid_null : Valid re (typeSchema (str "null")) .null := valid_type rfl

theorem valid_wrap {o : Flags} {a : Entries} {v : Value} (h : Valid re (.obj a) v ∨ (o.nullable = true ∧ v = .null)) :
    Valid re (.obj (wrapNullable [] o a)) v := by
  unfold wrapNullable
  split
  · refine valid_anyOf ?_
    rcases h with h | ⟨_, rfl⟩
    · exact ⟨_, by simp, h⟩
    · exact ⟨_, by simp, valid_null⟩
  · rcases h with h | ⟨h, _⟩
    · exact h
    · contradiction

/-! ## Primitives -/

/-- The JSON type of a primitive. -/
def typeName : Data → Bytes
  | .string _ => str "string"
  | .number _ => str "number"
  | .boolean _ => str "boolean"
  | _ => []

theorem literal_type {d : Data} {v z : Value} (h : Literal d v z) : HasType (typeName d) v ∧ HasType (typeName d) z ∧ Thin v ∧ Thin z := by
  cases h <;> simp [HasType, typeName, Thin]

theorem literal_unique {d : Data} {v z v' z' : Value} (h : Literal d v z) (h' : Literal d v' z') : v = v' ∧ z = z' := by
  cases h <;> cases h' <;> simp

theorem literal_instantiate {d : Data} {v z : Value} (h : Literal d v z) : JsonValue.instantiate d = v ∧ JsonValue.instantiateEmpty d = z := by
  cases h <;> exact ⟨rfl, rfl⟩

theorem literal_schema {e : Elem} {v z : Value} (h : Literal e.data v z) (c : Calls) (s : Entries) (o : Flags) :
    schemaStep c s e o = .ok (schemaPrimitive s e o (typeName e.data)) := by
  unfold schemaStep
  generalize hd : e.data = d at h ⊢
  cases h <;> rfl

theorem sameKind_literal {a b : Data} (h : SameKind a b) : typeName a = typeName b ∧ ∃ v z, Literal a v z := by
  cases h
  · exact ⟨rfl, _, _, .string _⟩
  · exact ⟨rfl, _, _, .number _⟩
  · rename_i x y
    refine ⟨rfl, ?_⟩
    cases x
    · exact ⟨_, _, .false⟩
    · exact ⟨_, _, .true⟩

/-- A primitive, with a value, sample or default of its own kind. -/
structure Prim (e : Elem) : Prop where
  literal : ∃ w z, Literal e.data w z
  kind : e.has = false → ∀ s, findFirstSample e = some s ∨ findDefault e = some s → s.has = true ∧ SameKind s.data e.data

theorem Prim.shows {e : Elem} (h : Prim e) (n : Bool) : ∃ v, Shows e n v ∧ Thin v ∧
    (e.has = true ∧ JsonValue.instantiate e.data = v ∨ e.has = false ∧ HasType (typeName e.data) v ∨ v = .null ∧ (n || hasNullable e) = true) := by
  obtain ⟨w, z, hl⟩ := h.literal
  by_cases hh : e.has = true
  · exact ⟨w, .value hl hh, (literal_type hl).2.2.1, .inl ⟨hh, (literal_instantiate hl).1⟩⟩
  · simp at hh
    cases hs : findFirstSample e with
    | some s =>
      obtain ⟨h1, h2⟩ := h.kind hh s (.inl hs)
      obtain ⟨h3, v, z', h4⟩ := sameKind_literal h2
      exact ⟨v, .sample hl hh hs (.value h4 h1), (literal_type h4).2.2.1, .inr (.inl ⟨hh, h3 ▸ (literal_type h4).1⟩)⟩
    | none =>
      cases hd : findDefault e with
      | some s =>
        obtain ⟨h1, h2⟩ := h.kind hh s (.inr hd)
        obtain ⟨h3, v, z', h4⟩ := sameKind_literal h2
        exact ⟨v, .default hl hh hs hd (.value h4 h1), (literal_type h4).2.2.1, .inr (.inl ⟨hh, h3 ▸ (literal_type h4).1⟩)⟩
      | none =>
        by_cases hn : (n || hasNullable e) = true
        · exact ⟨_, .null hl hh hs hd hn, by simp [Thin], .inr (.inr ⟨rfl, hn⟩)⟩
        · exact ⟨z, .type hl hh hs hd (by simpa using hn), (literal_type hl).2.2.2, .inr (.inl ⟨hh, (literal_type hl).2.1⟩)⟩

theorem Prim.valid {e : Elem} (h : Prim e) (f t n r : Bool) {v : Value} (hv : JsonValue.full.value e ⟨f, n⟩ = .ok v) :
    Valid re (.obj (schemaPrimitive [] e ⟨f, t, n, r⟩ (typeName e.data))) v ∧ Thin v := by
  obtain ⟨v', h1, h2, h3⟩ := h.shows n
  rw [JsonValue.shows_full h1 f] at hv
  cases hv
  refine ⟨?_, h2⟩
  obtain ⟨w, z, hl⟩ := h.literal
  unfold schemaPrimitive
  dsimp only
  split
  · rename_i hc
    simp only [Bool.and_eq_true] at hc
    refine valid_addEnum ?_
    have h4 : JsonValue.instantiate e.data = v ∨ v = .null ∧ (update e ⟨f, t, n, r⟩).nullable = true := by
      rcases h3 with h3 | h3 | h3
      · exact .inl h3.2
      · simp_all
      · exact .inr h3
    rcases h4 with h4 | ⟨rfl, h4⟩
    · subst h4
      refine ⟨JsonValue.instantiate e.data, ?_, same_refl _⟩
      split <;> simp
    · rw [if_pos h4]
      exact ⟨.null, by simp, rfl⟩
  · have h4 : HasType (typeName e.data) v ∨ v = .null ∧ (update e ⟨f, t, n, r⟩).nullable = true := by
      rcases h3 with h3 | h3 | h3
      · left; rw [← h3.2, (literal_instantiate hl).1]; exact (literal_type hl).1
      · exact .inl h3.2
      · exact .inr h3
    split
    · refine valid_anyOf ?_
      rcases h4 with h4 | ⟨rfl, _⟩
      · exact ⟨typeSchema (typeName e.data), by simp, valid_type h4⟩
      · exact ⟨_, by simp, valid_null⟩
    · rcases h4 with h4 | ⟨_, h4⟩
      · exact valid_type h4
      · contradiction

theorem instantiate_thin (d : Data) : Thin (JsonValue.instantiate d) := by
  cases d <;> simp [JsonValue.instantiate, Thin]
  split <;> simp [Thin]

theorem schemaPrimitive_thin (e : Elem) (o : Flags) (t : Bytes) :
    Thin (.obj (schemaPrimitive [] e o t)) := by
  have hi := instantiate_thin e.data
  unfold schemaPrimitive
  dsimp only
  split
  · split <;> simp [addEnum, Thin, ThinM, ThinP, ThinE, hi]
  · split <;> simp [Thin, ThinM, ThinP, ThinE, typeSchema]

/-! ## Enumerations -/

/-- The value is among the single values, or valid against one of the other alternatives. -/
def Covers (re : Bytes → Bytes → Prop) (enm anyOf : List Value) (v : Value) : Prop := (∃ e ∈ enm, Same e v) ∨ ∃ s ∈ anyOf, Valid re s v

theorem Covers.mono {enm anyOf enm' anyOf' : List Value} {v : Value} (h : Covers re enm anyOf v) (h1 : ∀ e ∈ enm, e ∈ enm')
    (h2 : ∀ e ∈ anyOf, e ∈ anyOf') : Covers re enm' anyOf' v := by
  rcases h with ⟨e, he, h⟩ | ⟨s, hs, h⟩
  · exact .inl ⟨e, h1 e he, h⟩
  · exact .inr ⟨s, h2 s hs, h⟩

theorem sortSchema_sub (enm anyOf : List Value) (s : Entries) :
    (∀ e ∈ enm, e ∈ (sortSchema enm anyOf s).1) ∧ (∀ e ∈ anyOf, e ∈ (sortSchema enm anyOf s).2) := by
  unfold sortSchema
  split
  · split
    · exact ⟨fun e he => emplaceAll_sub _ _ he, fun e he => he⟩
    · split
      · exact ⟨fun e he => he, fun e he => emplaceAll_sub _ _ he⟩
      · exact ⟨fun e he => he, fun e he => emplaceUniqueA_sub he⟩
  · exact ⟨fun e he => he, fun e he => emplaceUniqueA_sub he⟩

theorem thinE_iff {es : List Value} : ThinE es ↔ ∀ v ∈ es, Thin v := by
  induction es with
  | nil => simp [ThinE]
  | cons v r ih => simp [ThinE, ih]

theorem sortSchema_covers (enm anyOf : List Value) {s : Entries} (ht : Thin (.obj s)) {v : Value} (hv : Valid re (.obj s) v) :
    Covers re (sortSchema enm anyOf s).1 (sortSchema enm anyOf s).2 v := by
  unfold sortSchema
  split
  · rename_i k vals
    have hvals : ∀ x ∈ vals, Thin x := by
      simp [Thin, ThinM, ThinP, thinE_iff] at ht; exact ht
    split
    · rename_i hk
      subst hk
      rw [valid_obj] at hv
      simp +decide [ValidKeyword] at hv
      obtain ⟨e, he, h⟩ := hv
      exact .inl ⟨e, emplaceAll_thin (hvals e he) vals he _, h⟩
    · split
      · rename_i hk
        subst hk
        rw [valid_obj] at hv
        simp +decide [ValidKeyword, ValidAny, someValid_iff] at hv
        obtain ⟨e, he, h⟩ := hv
        exact .inr ⟨e, emplaceAll_thin (hvals e he) vals he _, h⟩
      · exact .inr ⟨_, emplaceUniqueA_thin ht, hv⟩
  · exact .inr ⟨_, emplaceUniqueA_thin ht, hv⟩

theorem enumEntries_mono (o : Flags) (es : List Elem) : ∀ (enm anyOf : List Value) p, enumEntries full o enm anyOf es = .ok p →
    (∀ e ∈ enm, e ∈ p.1) ∧ (∀ e ∈ anyOf, e ∈ p.2) := by
  induction es with
  | nil => intro enm anyOf p hp; simp [enumEntries] at hp; subst hp; exact ⟨fun _ h => h, fun _ h => h⟩
  | cons e es ih =>
    intro enm anyOf p hp
    simp only [enumEntries] at hp
    obtain ⟨size, _, hp⟩ := bind_ok.1 hp
    split at hp
    · obtain ⟨v, _, hp⟩ := bind_ok.1 hp
      obtain ⟨i1, i2⟩ := ih _ _ _ hp
      exact ⟨fun x hx => i1 x (emplaceUniqueA_sub hx), i2⟩
    · obtain ⟨s, hs, hp⟩ := bind_ok.1 hp
      obtain ⟨i1, i2⟩ := ih _ _ _ hp
      obtain ⟨j1, j2⟩ := sortSchema_sub enm anyOf s
      exact ⟨fun x hx => i1 x (j1 x hx), fun x hx => i2 x (j2 x hx)⟩

theorem enumEntries_covers (o : Flags) {y : Elem} (hy : Prim y) {v : Value} (hv : Shows y false v) (es : List Elem) (hm : y ∈ es) :
    ∀ (enm anyOf : List Value) p, enumEntries full o enm anyOf es = .ok p → Covers re p.1 p.2 v := by
  induction es with
  | nil => simp at hm
  | cons e es ih =>
    intro enm anyOf p hp
    simp only [enumEntries] at hp
    obtain ⟨size, _, hp⟩ := bind_ok.1 hp
    rcases List.mem_cons.1 hm with rfl | hm
    · obtain ⟨w, z, hl⟩ := hy.literal
      have hval := hy.valid (re := re) o.fixed false false false (JsonValue.shows_full hv o.fixed)
      split at hp
      · obtain ⟨v', hv', hp⟩ := bind_ok.1 hp
        rw [JsonValue.generate_full, JsonValue.shows_full hv] at hv'
        cases hv'
        obtain ⟨i1, i2⟩ := enumEntries_mono o es _ _ _ hp
        exact .inl ⟨v, i1 _ (emplaceUniqueA_thin hval.2), same_refl v⟩
      · obtain ⟨s, hs, hp⟩ := bind_ok.1 hp
        rw [full_schema, literal_schema hl] at hs
        cases hs
        obtain ⟨i1, i2⟩ := enumEntries_mono o es _ _ _ hp
        exact (sortSchema_covers enm anyOf (schemaPrimitive_thin _ _ _) hval.1).mono i1 i2
    · split at hp
      · obtain ⟨v', _, hp⟩ := bind_ok.1 hp
        exact ih hm _ _ _ hp
      · obtain ⟨s, hs, hp⟩ := bind_ok.1 hp
        exact ih hm _ _ _ hp

theorem same_thin {e v : Value} (ht : Thin v) (h : Same e v) : e = v := thin_eq v e ht (So.same_both e v h).1

theorem eqElems_thin {v : Value} (ht : Thin v) : ∀ (fs es : List Value), es.length = fs.length → So.eqElems es fs = true → v ∈ fs → v ∈ es
  | [], _, _, _, hv => by simp at hv
  | f :: fs, [], hl, _, _ => by simp at hl
  | f :: fs, e :: es, hl, h, hv => by
    simp [So.eqElems] at h
    rcases List.mem_cons.1 hv with rfl | hv
    · rw [thin_eq v e ht h.1]; simp
    · simp [eqElems_thin ht fs es (by simpa using hl) h.2 hv]

theorem addEnum_eqV {s v : Value} {enm : List Value} (h : So.eqV s (.obj (addEnum [] enm)) = true) (ht : Thin v) (hv : v ∈ enm) :
    Valid re s v := by
  have key : ∀ k x, So.eqV s (.obj [(k, x)]) = true → ∃ y, s = .obj [(k, y)] ∧ So.eqV y x = true := by
    intro k x h
    cases s <;> simp [So.eqV] at h
    rename_i ms
    obtain ⟨q, rfl⟩ := List.length_eq_one_iff.1 h.1
    obtain ⟨l, y⟩ := q
    have h2 := h.2
    simp [So.eqMembers, So.eqMember] at h2
    exact ⟨y, by rw [h2.1], h2.2⟩
  unfold addEnum at h
  split at h
  · simp at hv; subst hv
    obtain ⟨y, rfl, hy⟩ := key _ _ h
    rw [thin_eq v y ht hy]
    exact valid_const (same_refl v)
  · obtain ⟨y, rfl, hy⟩ := key _ _ h
    cases y <;> simp [So.eqV] at hy
    exact valid_enum ⟨v, eqElems_thin ht _ _ hy.1 hy.2 hv, same_refl v⟩

theorem enumSchema_valid {enm anyOf : List Value} {v : Value} (ht : Thin v) (h : Covers re enm anyOf v) : Valid re (.obj (enumSchema [] enm anyOf)) v := by
  unfold enumSchema
  split
  · rename_i he
    simp at he; subst he
    rcases h with h | ⟨s, hs, _⟩
    · exact valid_addEnum h
    · simp at hs
  · refine valid_anyOf ?_
    rcases h with h | ⟨s, hs, h⟩
    · obtain ⟨e, he, h⟩ := h
      have hne : enm.isEmpty = false := by
        cases enm
        · simp at he
        · rfl
      simp only [hne, Bool.false_eq_true, ↓reduceIte]
      have hv : Valid re (.obj (addEnum [] enm)) v := valid_addEnum ⟨e, he, h⟩
      unfold So.emplaceUniqueA
      split
      · rename_i hany
        obtain ⟨s, hs, heq⟩ := List.any_eq_true.1 hany
        exact ⟨s, hs, addEnum_eqV heq ht (same_thin ht h ▸ he)⟩
      · exact ⟨_, by simp, hv⟩
    · refine ⟨s, ?_, h⟩
      split
      · exact hs
      · exact emplaceUniqueA_sub hs

/-! ## Objects -/

theorem inheritOrPass_ok {o : JsonValue.Flags} {e : Elem} {b : Bool} (h : inheritsFixed e = .ok b) :
    JsonValue.inheritOrPass o e = .ok ⟨o.fixed && b, false⟩ := by
  simp [JsonValue.inheritOrPass, h, Except.bind]

theorem inheritOrPass_ok' {o : Flags} {e : Elem} {b : Bool} (h : inheritsFixed e = .ok b) :
    inheritOrPass o e = .ok ⟨o.fixed && b, false, false, false⟩ := by
  simp [inheritOrPass, h, Except.bind]

/-- What the contents of an object add to the body and to the schema. -/
structure Added (re : Bytes → Bytes → Prop) (ns : List Bytes) (ms : Entries) (ps : Entries) (rs : List Value) : Prop where
  names : ps.map (·.1) = ns
  valid : ∀ m ∈ ms, ∃ s, (m.1, s) ∈ ps ∧ Valid re s m.2
  required : ∀ r ∈ rs, ∃ k ∈ ms.map (·.1), r = .str k
  unique : (ms.map (·.1)).Sublist ns

theorem Added.nil : Added re [] [] [] [] := ⟨rfl, by simp, by simp, by simp⟩

theorem Added.append {ns ns' : List Bytes} {ms ms' ps ps' : Entries} {rs rs' : List Value} (h : Added re ns ms ps rs)
    (h' : Added re ns' ms' ps' rs') : Added re (ns ++ ns') (ms ++ ms') (ps ++ ps') (rs ++ rs') := by
  refine ⟨by simp [h.names, h'.names], ?_, ?_, by simpa using h.unique.append h'.unique⟩
  · intro m hm
    rcases List.mem_append.1 hm with hm | hm
    · obtain ⟨s, h1, h2⟩ := h.valid m hm; exact ⟨s, by simp [h1], h2⟩
    · obtain ⟨s, h1, h2⟩ := h'.valid m hm; exact ⟨s, by simp [h1], h2⟩
  · intro r hr
    rcases List.mem_append.1 hr with hr | hr
    · obtain ⟨k, h1, h2⟩ := h.required r hr
      exact ⟨k, by rw [List.map_append, List.mem_append]; exact .inl h1, h2⟩
    · obtain ⟨k, h1, h2⟩ := h'.required r hr
      exact ⟨k, by rw [List.map_append, List.mem_append]; exact .inr h1, h2⟩

/-- The schema with more properties. -/
def ObjectSchema.add (q : ObjectSchema) (ps : Entries) (rs : List Value) : ObjectSchema :=
  { q with properties := q.properties ++ ps, required := q.required ++ rs }

/-- The claim for an element in an object. -/
def ContentOk (re : Bytes → Bytes → Prop) (f : Bool) (names : List Bytes) (e : Elem) : Prop :=
  ∀ obj obj' q q' t n r, JsonValue.full.property obj e ⟨f, false⟩ = .ok obj' → full.property q e ⟨f, t, n, r⟩ = .ok q' →
    names.Nodup → (∀ k ∈ names, k ∉ obj.map (·.1)) → ∃ ms ps rs, obj' = obj ++ ms ∧ q' = q.add ps rs ∧ Added re names ms ps rs

/-- The claim for a value. -/
def ValueOk (re : Bytes → Bytes → Prop) (f t n : Bool) (e : Elem) : Prop :=
  ∀ v s r, JsonValue.full.value e ⟨f, n⟩ = .ok v → full.schema [] e ⟨f, t, n, r⟩ = .ok s → Valid re (.obj s) v

theorem loop_ok (o : JsonValue.Flags) (o' : Flags) (names : Elem → List Bytes) (inherits : Elem → Bool) (ho : o.fixed = o'.fixed) (es : List Elem)
    (hi : ∀ x ∈ es, inheritsFixed x = .ok (inherits x)) (hc : ∀ x ∈ es, ContentOk re (o.fixed && inherits x) (names x) x) :
    ∀ obj obj' q q', JsonValue.properties JsonValue.full o obj es = .ok obj' → properties full o' q es = .ok q' →
      (es.flatMap names).Nodup → (∀ k ∈ es.flatMap names, k ∉ obj.map (·.1)) →
      ∃ ms ps rs, obj' = obj ++ ms ∧ q' = q.add ps rs ∧ Added re (es.flatMap names) ms ps rs := by
  induction es with
  | nil =>
    intro obj obj' q q' h1 h2 _ _
    simp [JsonValue.properties] at h1; simp [properties] at h2
    subst h1; subst h2
    exact ⟨[], [], [], by simp, by simp [ObjectSchema.add], Added.nil⟩
  | cons e es ih =>
    intro obj obj' q q' h1 h2 hn hk
    simp only [JsonValue.properties] at h1
    simp only [properties] at h2
    rw [inheritOrPass_ok (hi e (by simp))] at h1
    rw [inheritOrPass_ok' (hi e (by simp))] at h2
    obtain ⟨_, hx, h1⟩ := bind_ok.1 h1
    cases hx
    obtain ⟨_, hx, h2⟩ := bind_ok.1 h2
    cases hx
    obtain ⟨obj1, g1, h1⟩ := bind_ok.1 h1
    obtain ⟨q1, g2, h2⟩ := bind_ok.1 h2
    simp only [List.flatMap_cons] at hn hk
    have hn' := List.nodup_append.1 hn
    obtain ⟨ms, ps, rs, rfl, rfl, ha⟩ := hc e (by simp) obj obj1 q q1 false false (o'.fixedType || o'.fixed) g1 (by
      rw [ho]
      cases hb : (o'.fixedType || o'.fixed) <;> simp only [hb, Bool.false_eq_true, ↓reduceIte] at g2 <;> exact g2) hn'.1 (fun k hk' => hk k (by simp [hk']))
    obtain ⟨ms', ps', rs', rfl, rfl, ha'⟩ := ih (fun x hx => hi x (by simp [hx])) (fun x hx => hc x (by simp [hx])) _ _ _ _ h1 h2 hn'.2.1 (by
      intro k hk' hmem
      rw [List.map_append, List.mem_append] at hmem
      rcases hmem with hmem | hmem
      · exact hk k (by rw [List.mem_append]; exact .inr hk') hmem
      · exact hn'.2.2 _ (ha.unique.subset hmem) _ hk' rfl)
    exact ⟨ms ++ ms', ps ++ ps', rs ++ rs', by simp, by simp [ObjectSchema.add], ha.append ha'⟩

theorem mixinLoop_ok (o : JsonValue.Flags) (o' : Flags) (names : Elem → List Bytes) (ho : o.fixed = o'.fixed) (es : List Elem)
    (hi : o.fixed = true → ∀ x ∈ es, inheritsFixed x = .ok true) (hc : ∀ x ∈ es, ContentOk re o.fixed (names x) x) :
    ∀ obj obj' q q', JsonValue.properties JsonValue.full o obj es = .ok obj' → mixinEntries full o' q es = .ok q' →
      (es.flatMap names).Nodup → (∀ k ∈ es.flatMap names, k ∉ obj.map (·.1)) →
      ∃ ms ps rs, obj' = obj ++ ms ∧ q' = q.add ps rs ∧ Added re (es.flatMap names) ms ps rs := by
  induction es with
  | nil =>
    intro obj obj' q q' h1 h2 _ _
    simp [JsonValue.properties] at h1; simp [mixinEntries] at h2
    subst h1; subst h2
    exact ⟨[], [], [], by simp, by simp [ObjectSchema.add], Added.nil⟩
  | cons e es ih =>
    intro obj obj' q q' h1 h2 hn hk
    simp only [JsonValue.properties] at h1
    simp only [mixinEntries] at h2
    obtain ⟨p, hp, h1⟩ := bind_ok.1 h1
    have hp' : p = ⟨o.fixed, false⟩ := by
      obtain ⟨b, hb, hp⟩ := bind_ok.1 hp
      cases hp
      cases hf : o.fixed with
      | false => rfl
      | true => rw [hi hf e (by simp)] at hb; cases hb; rfl
    subst hp'
    obtain ⟨obj1, g1, h1⟩ := bind_ok.1 h1
    obtain ⟨q1, g2, h2⟩ := bind_ok.1 h2
    simp only [List.flatMap_cons] at hn hk
    have hn' := List.nodup_append.1 hn
    obtain ⟨ms, ps, rs, rfl, rfl, ha⟩ := hc e (by simp) obj obj1 q q1 false false false g1 (by
      rw [ho]; exact g2) hn'.1 (fun k hk' => hk k (by simp [hk']))
    obtain ⟨ms', ps', rs', rfl, rfl, ha'⟩ := ih (fun hf x hx => hi hf x (by simp [hx])) (fun x hx => hc x (by simp [hx])) _ _ _ _ h1 h2 hn'.2.1 (by
      intro k hk' hmem
      rw [List.map_append, List.mem_append] at hmem
      rcases hmem with hmem | hmem
      · exact hk k (by rw [List.mem_append]; exact .inr hk') hmem
      · exact hn'.2.2 _ (ha.unique.subset hmem) _ hk' rfl)
    exact ⟨ms ++ ms', ps ++ ps', rs ++ rs', by simp, by simp [ObjectSchema.add], ha.append ha'⟩

theorem object_valid {ns : List Bytes} {ms ps : Entries} {rs : List Value} (ha : Added re ns ms ps rs) (hn : ns.Nodup) (closed : Bool) :
    Valid re (.obj ([(str "type", .str (str "object"))] ++ materialize (ObjectSchema.add {} ps rs) ++
        (if closed then [(str "additionalProperties", .fls)] else []))) (.obj ms) := by
  have hps : (ps.map (·.1)).Nodup := by rw [ha.names]; exact hn
  rw [valid_obj]
  intro p hp
  rw [List.mem_append, List.mem_append] at hp
  rcases hp with (hp | hp) | hp
  · simp at hp; subst hp
    simp +decide [ValidKeyword, HasType]
  · rcases mem_materialize hp with rfl | rfl | ⟨h0, _⟩ | ⟨h0, rfl⟩
    · simp +decide [ValidKeyword, ValidProperties, validPropertiesM_iff, ObjectSchema.add]
      rintro k s hs k' w hw rfl
      obtain ⟨s', hs', hv⟩ := ha.valid _ hw
      have := List.inj_on_of_nodup_map hps hs hs' rfl
      injection this with _ h2
      rw [h2]; exact hv
    · simp +decide [ValidKeyword, ValidPatterns, ValidPatternsM, ObjectSchema.add]
    · simp [ObjectSchema.add] at h0
    · simp +decide only [ValidKeyword, ObjectSchema.add, List.nil_append, false_implies, true_and, forall_const, and_true, So.Value.arr.injEq, exists_eq_left', So.Value.obj.injEq]
      rintro ms' rfl r hr
      exact ha.required r hr
  · cases closed <;> simp at hp
    subst hp
    simp +decide only [ValidKeyword, false_implies, true_and, forall_const, and_true]
    rintro ms' h m hm hd _
    cases h
    exfalso
    apply hd
    obtain ⟨s, hs, _⟩ := ha.valid m hm
    refine ⟨ps, ?_, List.mem_map.2 ⟨_, hs, rfl⟩⟩
    have hne : ps ≠ [] := by rintro rfl; simp at hs
    simp [materialize, ObjectSchema.add, hne]

/-! ## Arrays -/

theorem regular_prim {e : Elem} {f t n : Bool} (h : Regular (.value f t n) e) {w z : Value} (hl : Literal e.data w z) : Prim e := by
  generalize hd : e.data = d at hl
  cases h with
  | primitive h1 h2 => exact ⟨⟨_, _, h1⟩, h2⟩
  | _ => cases hl <;> simp_all

theorem prim_value {e : Elem} (h : Prim e) (f f' n : Bool) : JsonValue.full.value e ⟨f, n⟩ = JsonValue.full.value e ⟨f', n⟩ := by
  obtain ⟨v, hv, _⟩ := h.shows n
  rw [JsonValue.shows_full hv f, JsonValue.shows_full hv f']

theorem item_some {x : Elem} {F b t : Bool} (hr : Regular (.value (F && b) t false) x) (hx : ∀ k, x.data ≠ .ref k)
    (hi : inheritsFixed x = .ok b) {arr arr' : List Value} (h : JsonValue.full.item arr x ⟨F && b, false⟩ = .ok arr') :
    (arr' = arr ∧ ¬ OneItem x) ∨ ∃ w, arr' = arr ++ [w] ∧ JsonValue.full.value x ⟨F && b, false⟩ = .ok w := by
  rw [JsonValue.full_item, JsonValue.itemStep] at h
  have hF : ((F && b) && b) = (F && b) := by cases F <;> cases b <;> rfl
  have hpush : ((JsonValue.inheritOrPass ⟨F && b, false⟩ x).bind fun o' => (JsonValue.valueStep JsonValue.full x o').bind fun v =>
      (.ok (arr ++ [v]) : R (List Value))) = .ok arr' → ∃ w, arr' = arr ++ [w] ∧ JsonValue.full.value x ⟨F && b, false⟩ = .ok w := by
    intro h
    rw [inheritOrPass_ok hi] at h
    obtain ⟨_, ho, h⟩ := bind_ok.1 h
    cases ho
    rw [hF, ← JsonValue.full_value] at h
    obtain ⟨w, hw, h⟩ := bind_ok.1 h
    cases h
    exact ⟨w, rfl, hw⟩
  have hprim : ∀ {w z}, Literal x.data w z → JsonValue.itemPrimitive JsonValue.full arr x ⟨F && b, false⟩ = .ok arr' → (OneItem x → definesValue x = true) →
      (definesValue x = true → OneItem x) →
      (arr' = arr ∧ ¬ OneItem x) ∨ ∃ w, arr' = arr ++ [w] ∧ JsonValue.full.value x ⟨F && b, false⟩ = .ok w := by
    intro w z hl h h1 h2
    have hp := regular_prim hr hl
    unfold JsonValue.itemPrimitive at h
    dsimp only at h
    split at h
    · rw [inheritOrPass_ok hi] at h
      obtain ⟨_, ho, h⟩ := bind_ok.1 h
      cases ho
      rw [← JsonValue.full_value] at h
      obtain ⟨w, hw, h⟩ := bind_ok.1 h
      cases h
      rw [prim_value hp _ (F && b)] at hw
      exact .inr ⟨w, rfl, hw⟩
    · rename_i hc
      cases h
      refine .inl ⟨rfl, fun ho => hc ?_⟩
      simp [h1 ho]
  generalize hd : x.data = d at h hprim
  cases d with
  | array _ => exact .inr (hpush h)
  | enum _ => exact .inr (hpush h)
  | extend _ => exact .inr (hpush h)
  | null => exact .inr (hpush h)
  | object _ => exact .inr (hpush h)
  | holder _ => exact .inr (hpush h)
  | member _ _ => exfalso; cases hr <;> simp_all; rename_i hl _; cases hl
  | option _ => exfalso; cases hr <;> simp_all; rename_i hl _; cases hl
  | select _ => exfalso; cases hr <;> simp_all; rename_i hl _; cases hl
  | ref k => exact absurd hd (hx k)
  | number s => exact hprim (.number s) h (by simp [OneItem, hd]) (by simp [OneItem, hd])
  | string s => exact hprim (.string s) h (by simp [OneItem, hd]) (by simp [OneItem, hd])
  | boolean s =>
    cases s
    · exact hprim .false h (by simp [OneItem, hd]) (by simp [OneItem, hd])
    · exact hprim .true h (by simp [OneItem, hd]) (by simp [OneItem, hd])

theorem tuple_loop (o : JsonValue.Flags) (o' : Flags) (inherits : Elem → Bool) (ho : o.fixed = o'.fixed) (es : List Elem)
    (hi : ∀ x ∈ es, OneItem x ∧ inheritsFixed x = .ok (inherits x))
    (hr : ∀ x ∈ es, Regular (.value (o.fixed && inherits x) false false) x)
    (hv : ∀ x ∈ es, ValueOk re (o.fixed && inherits x) false false x) :
    ∀ arr arr' ss, JsonValue.items JsonValue.full o arr es = .ok arr' → itemSchemas full o' es = .ok ss →
      ∃ ws, arr' = arr ++ ws ∧ ws.length = ss.length ∧ ValidTuple re ss ws := by
  induction es with
  | nil =>
    intro arr arr' ss h1 h2
    simp [JsonValue.items] at h1; simp [itemSchemas] at h2
    subst h1; subst h2
    exact ⟨[], by simp, rfl, trivial⟩
  | cons e es ih =>
    intro arr arr' ss h1 h2
    simp only [JsonValue.items] at h1
    simp only [itemSchemas] at h2
    rw [inheritOrPass_ok (hi e (by simp)).2] at h1
    rw [inheritOrPass_ok' (hi e (by simp)).2] at h2
    obtain ⟨_, hx, h1⟩ := bind_ok.1 h1
    cases hx
    obtain ⟨_, hx, h2⟩ := bind_ok.1 h2
    cases hx
    obtain ⟨arr1, g1, h1⟩ := bind_ok.1 h1
    obtain ⟨v, g2, h2⟩ := bind_ok.1 h2
    obtain ⟨vs, g3, h2⟩ := bind_ok.1 h2
    cases h2
    obtain ⟨s, g4, g2⟩ := bind_ok.1 g2
    cases g2
    have hone := (hi e (by simp)).1
    rcases item_some (hr e (by simp)) (by intro k hk; simp [OneItem, hk] at hone) (hi e (by simp)).2 g1 with ⟨_, hno⟩ | ⟨w, rfl, hw⟩
    · exact absurd hone hno
    · obtain ⟨ws, rfl, hl, ht⟩ := ih (fun x hx => hi x (by simp [hx])) (fun x hx => hr x (by simp [hx])) (fun x hx => hv x (by simp [hx])) _ _ _ h1 g3
      refine ⟨w :: ws, by simp, by simp [hl], ?_⟩
      exact ⟨hv e (by simp) w s _ hw (by rw [ho]; exact g4), ht⟩

theorem typed_loop (o : JsonValue.Flags) (o' : Flags) (inherits : Elem → Bool) (ho : o.fixed = o'.fixed) (es : List Elem)
    (hi : ∀ x ∈ es, (∀ k, x.data ≠ .ref k) ∧ inheritsFixed x = .ok (inherits x))
    (hr : ∀ x ∈ es, Regular (.value (o.fixed && inherits x) false false) x)
    (hv : ∀ x ∈ es, ValueOk re (o.fixed && inherits x) false false x) :
    ∀ arr arr' ss, JsonValue.items JsonValue.full o arr es = .ok arr' → itemSchemas full o' es = .ok ss →
      ∃ ws, arr' = arr ++ ws ∧ ∀ w ∈ ws, ∃ s ∈ ss, Valid re s w := by
  induction es with
  | nil =>
    intro arr arr' ss h1 h2
    simp [JsonValue.items] at h1
    subst h1
    exact ⟨[], by simp, by simp⟩
  | cons e es ih =>
    intro arr arr' ss h1 h2
    simp only [JsonValue.items] at h1
    simp only [itemSchemas] at h2
    rw [inheritOrPass_ok (hi e (by simp)).2] at h1
    rw [inheritOrPass_ok' (hi e (by simp)).2] at h2
    obtain ⟨_, hx, h1⟩ := bind_ok.1 h1
    cases hx
    obtain ⟨_, hx, h2⟩ := bind_ok.1 h2
    cases hx
    obtain ⟨arr1, g1, h1⟩ := bind_ok.1 h1
    obtain ⟨v, g2, h2⟩ := bind_ok.1 h2
    obtain ⟨vs, g3, h2⟩ := bind_ok.1 h2
    cases h2
    obtain ⟨s, g4, g2⟩ := bind_ok.1 g2
    cases g2
    obtain ⟨ws, rfl, hl⟩ := ih (fun x hx => hi x (by simp [hx])) (fun x hx => hr x (by simp [hx])) (fun x hx => hv x (by simp [hx])) _ _ _ h1 g3
    rcases item_some (hr e (by simp)) (hi e (by simp)).1 (hi e (by simp)).2 g1 with ⟨rfl, hno⟩ | ⟨w, rfl, hw⟩
    · refine ⟨ws, rfl, fun w hw => ?_⟩
      obtain ⟨s, hs, h⟩ := hl w hw
      exact ⟨s, by simp [hs], h⟩
    · refine ⟨w :: ws, by simp, ?_⟩
      intro u hu
      rcases List.mem_cons.1 hu with rfl | hu
      · exact ⟨_, by simp, hv e (by simp) u s _ hw (by rw [ho]; exact g4)⟩
      · obtain ⟨s, hs, h⟩ := hl u hu
        exact ⟨s, by simp [hs], h⟩

theorem itemSchemas_thin (o : Flags) (es : List Elem) (hl : ∀ x ∈ es, ∃ w z, Literal x.data w z) :
    ∀ ss, itemSchemas full o es = .ok ss → ∀ s ∈ ss, Thin s := by
  induction es with
  | nil => intro ss h; simp [itemSchemas] at h; subst h; simp
  | cons e es ih =>
    intro ss h2
    simp only [itemSchemas] at h2
    obtain ⟨o', _, h2⟩ := bind_ok.1 h2
    obtain ⟨v, g2, h2⟩ := bind_ok.1 h2
    obtain ⟨vs, g3, h2⟩ := bind_ok.1 h2
    cases h2
    obtain ⟨s, g4, g2⟩ := bind_ok.1 g2
    cases g2
    obtain ⟨w, z, hlit⟩ := hl e (by simp)
    rw [full_schema, literal_schema hlit] at g4
    cases g4
    intro s hs
    rcases List.mem_cons.1 hs with rfl | hs
    · exact schemaPrimitive_thin _ _ _
    · exact ih (fun x hx => hl x (by simp [hx])) vs g3 s hs

/-! ## All elements -/

theorem writes_full {e : Elem} {v : Value} (h : Writes e v) : Thin v ∧ ∀ o, JsonValue.full.value e o = .ok v := by
  induction h with
  | literal h1 h2 => exact ⟨(literal_type h2).2.2.1, fun o => JsonValue.shows_full (.value h2 h1) o.fixed⟩
  | enum h1 h2 _ ih =>
    refine ⟨ih.1, fun o => ?_⟩
    rw [JsonValue.full_value, JsonValue.valueStep, h2]
    simp [Elem.empty, h1, ih.2]

theorem mixin_new (ms : Entries) : ∀ obj : Entries, (ms.map (·.1)).Nodup → (∀ k ∈ ms.map (·.1), k ∉ obj.map (·.1)) →
    JsonValue.mixin obj ms = obj ++ ms := by
  induction ms with
  | nil => intro obj _ _; simp [JsonValue.mixin]
  | cons p r ih =>
    intro obj hn hk
    simp only [List.map_cons, List.nodup_cons] at hn
    have := ih (obj ++ [p]) hn.2 (by
      intro k hk' hm
      rw [List.map_append, List.mem_append] at hm
      rcases hm with hm | hm
      · exact hk k (by simp only [List.map_cons, List.mem_cons]; exact .inr hk') hm
      · simp at hm; subst hm; exact hn.1 hk')
    simp only [JsonValue.mixin, List.foldl_cons] at this ⊢
    rw [JsonValue.emplaceUnique_new _ _ _ (hk p.1 (by simp)), this]
    simp

/-- The claim. -/
def PlaceOk (re : Bytes → Bytes → Prop) : Place → Elem → Prop
  | .value f t n, e => ValueOk re f t n e
  | .content f ns, e => ContentOk re f ns e

theorem unset_alt {e : Elem} (h : Unset e) (o : JsonValue.Flags) :
    JsonValue.sampleOrDefaultOrNull JsonValue.full e o = .ok (if o.nullable then some .null else none) := by
  simp [JsonValue.sampleOrDefaultOrNull, h.2.1, h.2.2]

theorem unset_value {e : Elem} (h : Unset e) {o : JsonValue.Flags} {w v : Value}
    (hv : (JsonValue.sampleOrDefaultOrNull JsonValue.full e (JsonValue.update e o)).bind (fun alt => (.ok (alt.getD w) : R Value)) = .ok v) :
    v = w ∨ v = .null ∧ (JsonValue.update e o).nullable = true := by
  rw [unset_alt h] at hv
  obtain ⟨_, hx, hv⟩ := bind_ok.1 hv
  cases hx
  cases hv
  cases (JsonValue.update e o).nullable <;> simp

theorem regular_ok {p : Place} {e : Elem} (h : Regular p e) : PlaceOk re p e := by
  induction h with
  | @primitive e f t n w z hl hk =>
    intro v s r hv hs
    rw [full_schema, literal_schema hl] at hs
    cases hs
    exact (Prim.valid ⟨⟨_, _, hl⟩, hk⟩ f t n r hv).1
  | null hd =>
    intro v s r hv hs
    rw [JsonValue.full_value, JsonValue.valueStep, hd] at hv
    rw [full_schema, schemaStep, hd] at hs
    cases hv; cases hs
    exact valid_null
  | @object e f t n es names inherits hd hh hi hr hn ih =>
    intro v s r hv hs
    rw [JsonValue.full_value, JsonValue.valueStep, hd] at hv
    rw [full_schema, schemaStep, hd] at hs
    simp only [Elem.empty, hh, Bool.not_true, Bool.false_eq_true, ↓reduceIte] at hv hs
    obtain ⟨ms, hm, hv⟩ := bind_ok.1 hv
    cases hv
    obtain ⟨q, hq, hs⟩ := bind_ok.1 hs
    cases hs
    obtain ⟨ms', ps, rs, h1, rfl, ha⟩ := loop_ok (JsonValue.update e ⟨f, n⟩) _ names inherits rfl es hi ih [] ms {} q hm hq hn (by simp)
    simp only [List.nil_append] at h1
    subst h1
    exact valid_wrap (.inl (object_valid ha hn _))
  | @objectUnset e f t n es hd hu =>
    intro v s r hv hs
    rw [JsonValue.full_value, JsonValue.valueStep, hd] at hv
    rw [full_schema, schemaStep, hd] at hs
    simp only [Elem.empty, hu.1, Bool.not_false, ↓reduceIte] at hv hs
    obtain ⟨_, hq, hs⟩ := bind_ok.1 hs
    cases hq
    cases hs
    rcases unset_value hu hv with rfl | ⟨rfl, hn⟩
    · exact valid_wrap (.inl (object_valid (ps := []) (rs := []) Added.nil (by simp) _))
    · exact valid_wrap (.inr ⟨hn, rfl⟩)
  | @array e f t n es hd hh hf ht =>
    intro v s r hv hs
    rw [JsonValue.full_value, JsonValue.valueStep, hd] at hv
    rw [full_schema, schemaStep, hd] at hs
    simp only [Elem.empty, hh, Bool.not_true, Bool.false_eq_true, ↓reduceIte] at hv
    obtain ⟨vs, hm, hv⟩ := bind_ok.1 hv
    cases hv
    obtain ⟨a, ha, hs⟩ := bind_ok.1 hs
    cases hs
    simp only [arrayEntries, update, hf, ht, Bool.false_eq_true, ↓reduceIte] at ha
    cases ha
    exact valid_wrap (.inl (valid_type rfl))
  | @arrayUnset e f t n es hd hu =>
    intro v s r hv hs
    rw [JsonValue.full_value, JsonValue.valueStep, hd] at hv
    rw [full_schema, schemaStep, hd] at hs
    simp only [Elem.empty, hu.1, Bool.not_false, ↓reduceIte] at hv
    obtain ⟨a, ha, hs⟩ := bind_ok.1 hs
    cases hs
    rcases unset_value hu hv with rfl | ⟨rfl, hn⟩
    · refine valid_wrap (.inl ?_)
      simp only [arrayEntries, Elem.empty, hu.1, Bool.not_false, Bool.false_eq_true, ↓reduceIte, itemSchemas] at ha
      split at ha
      · cases ha
        rw [valid_obj]
        simp +decide [ValidKeyword, HasType, IsCount, decimal]
        exact ⟨_, rfl⟩
      · split at ha
        · cases ha
          rw [valid_obj]
          simp +decide [ValidKeyword, HasType, IsCount, decimal, ValidItems, ValidTuple]
        · cases ha
          exact valid_type rfl
    · exact valid_wrap (.inr ⟨hn, rfl⟩)
  | @tuple e f t n es inherits hd hh ht hi hr ih =>
    intro v s r hv hs
    rw [JsonValue.full_value, JsonValue.valueStep, hd] at hv
    rw [full_schema, schemaStep, hd] at hs
    simp only [Elem.empty, hh, Bool.not_true, Bool.false_eq_true, ↓reduceIte] at hv
    obtain ⟨vs, hm, hv⟩ := bind_ok.1 hv
    cases hv
    obtain ⟨a, ha, hs⟩ := bind_ok.1 hs
    cases hs
    refine valid_wrap (.inl ?_)
    have ht' : (update e ⟨f, t, n, r⟩).fixedType = false := ht
    simp only [arrayEntries, ht', hh, Bool.false_eq_true, ↓reduceIte] at ha
    split at ha
    · obtain ⟨ss, hss, ha⟩ := bind_ok.1 ha
      cases ha
      obtain ⟨ws, h1, h2, h3⟩ := tuple_loop (re := re) (JsonValue.update e ⟨f, n⟩) _ inherits rfl es hi hr ih [] vs ss hm hss
      simp only [List.nil_append] at h1
      subst h1
      rw [valid_obj]
      simp +decide [ValidKeyword, HasType, IsCount, decimal, ValidItems, ← h2]
      exact ⟨⟨_, rfl, Nat.le_refl _⟩, h3⟩
    · cases ha
      exact valid_type rfl
  | @typedArray e f t n es inherits hd hh ht ho hi hr ih =>
    intro v s r hv hs
    rw [JsonValue.full_value, JsonValue.valueStep, hd] at hv
    rw [full_schema, schemaStep, hd] at hs
    simp only [Elem.empty, hh, Bool.not_true, Bool.false_eq_true, ↓reduceIte] at hv
    obtain ⟨vs, hm, hv⟩ := bind_ok.1 hv
    cases hv
    obtain ⟨a, ha, hs⟩ := bind_ok.1 hs
    cases hs
    refine valid_wrap (.inl ?_)
    have ht' : (update e ⟨f, t, n, r⟩).fixedType = true := ht
    have key : ∀ ss, itemSchemas full (update e ⟨f, t, n, r⟩) es = .ok ss → ∀ w ∈ vs, ∃ s ∈ ss, Valid re s w := by
      intro ss hss
      obtain ⟨ws, h1, h2⟩ := typed_loop (re := re) (JsonValue.update e ⟨f, n⟩) _ inherits rfl es hi hr ih [] vs ss hm hss
      simp only [List.nil_append] at h1
      subst h1
      exact h2
    simp only [arrayEntries, ht', Elem.empty, hh, Bool.not_true, Bool.false_eq_true, ↓reduceIte] at ha
    split at ha
    · rename_i x
      obtain ⟨o', ho', ha⟩ := bind_ok.1 ha
      obtain ⟨sv, hsv, ha⟩ := bind_ok.1 ha
      cases ha
      have h2 := key [sv] (by simp [itemSchemas, ho', hsv, Except.bind])
      obtain ⟨s', _, hsv⟩ := bind_ok.1 hsv
      cases hsv
      rw [valid_obj]
      simp +decide [ValidKeyword, HasType, ValidItems]
      intro w hw
      obtain ⟨s, hs, h⟩ := h2 w hw
      simp at hs
      subst hs
      rwa [Valid] at h
    · rename_i hne
      have hlit : ∀ x ∈ es, ∃ w z, Literal x.data w z := by
        rcases ho with ho | ho
        · obtain ⟨x, rfl⟩ := List.length_eq_one_iff.1 ho
          exact absurd rfl (hne x)
        · exact ho
      obtain ⟨ss, hss, ha⟩ := bind_ok.1 ha
      cases ha
      have h2 := key ss hss
      rw [valid_obj]
      simp +decide only [List.mem_cons, List.not_mem_nil, or_false, forall_eq_or_imp, forall_eq]
      constructor
      · simp +decide [ValidKeyword, HasType]
      · simp +decide [ValidKeyword, ValidItems]
        intro w hw
        have h3 : Valid re (.obj [(str "anyOf", .arr (emplaceAll [] ss))]) w := by
          obtain ⟨s, hs, h⟩ := h2 w hw
          exact valid_anyOf ⟨s, emplaceAll_thin (itemSchemas_thin _ es hlit ss hss s hs) ss hs _, h⟩
        rwa [Valid] at h3
  | @enumSet e f t n v x es c y w z hd hx hxd hxh hc hw hy hyh hl =>
    intro v' s r hv hs
    rw [JsonValue.full_value, JsonValue.valueStep, hd] at hv
    rw [full_schema, schemaStep, hd] at hs
    have hval : v' = w := by
      rcases hc with ⟨h1, rfl⟩ | ⟨h1, hc⟩
      · simp only [Elem.empty, h1, Bool.not_true, Bool.false_eq_true, ↓reduceIte, (writes_full hw).2] at hv
        cases hv; rfl
      · simp only [Elem.empty, h1, Bool.not_false, ↓reduceIte] at hv
        have : JsonValue.sampleOrDefaultOrNull JsonValue.full e (JsonValue.update e ⟨f, n⟩) = .ok (some w) := by
          rcases hc with hc | ⟨hc1, hc2⟩
          · simp [JsonValue.sampleOrDefaultOrNull, hc, (writes_full hw).2, Except.map]
          · simp [JsonValue.sampleOrDefaultOrNull, hc1, hc2, (writes_full hw).2, Except.map]
        rw [this] at hv
        obtain ⟨_, hx, hv⟩ := bind_ok.1 hv
        cases hx
        cases hv
        rfl
    subst hval
    have hax : asArray x = some es := by simp [asArray, hxd]
    simp only [hx, hax, hxh, ↓reduceIte] at hs
    obtain ⟨q, hq, hs⟩ := bind_ok.1 hs
    cases hs
    exact enumSchema_valid (literal_type hl).2.2.1
      (enumEntries_covers _ ⟨⟨_, _, hl⟩, by simp [hyh]⟩ (.value hl hyh) es hy _ _ _ hq)
  | @enumNull e f t n v hd hu hn =>
    intro v' s r hv hs
    rw [JsonValue.full_value, JsonValue.valueStep, hd] at hv
    rw [full_schema, schemaStep, hd] at hs
    have hn' : (JsonValue.update e ⟨f, n⟩).nullable = true := hn
    simp only [Elem.empty, hu.1, Bool.not_false, ↓reduceIte, unset_alt hu, hn'] at hv
    cases hv
    have hn' : (update e ⟨f, t, n, r⟩).nullable = true := hn
    simp only [hn', ↓reduceIte] at hs
    split at hs
    · cases hs
      exact enumSchema_valid (by simp [Thin]) (.inl ⟨.null, by simp, rfl⟩)
    · split at hs
      · cases hs
      · obtain ⟨q, hq, hs⟩ := bind_ok.1 hs
        cases hs
        exact enumSchema_valid (by simp [Thin]) (.inl ⟨.null, (enumEntries_mono _ _ _ _ _ hq).1 _ (by simp), rfl⟩)
  | @enumFirst e f t n v x y es w z hd hu hn hx hxd hxh hl hr ih =>
    intro v' s r hv hs
    rw [JsonValue.full_value, JsonValue.valueStep, hd] at hv
    rw [full_schema, schemaStep, hd] at hs
    have hax : asArray x = some (y :: es) := by simp [asArray, hxd]
    have hn' : (JsonValue.update e ⟨f, n⟩).nullable = false := hn
    simp only [Elem.empty, hu.1, Bool.not_false, ↓reduceIte, unset_alt hu, hn', Bool.false_eq_true, hx, hax, hxh] at hv
    obtain ⟨_, hx', hv⟩ := bind_ok.1 hv
    cases hx'
    simp only [hx, hax, hxh, ↓reduceIte] at hs
    obtain ⟨q, hq, hs⟩ := bind_ok.1 hs
    cases hs
    have hp := regular_prim hr hl
    obtain ⟨u, hu1, hu2, _⟩ := hp.shows false
    have : JsonValue.update e ⟨f, n⟩ = ⟨f || hasFixed e, false⟩ := by
      simp only [JsonValue.update, hn]
    rw [this, JsonValue.shows_full hu1] at hv
    cases hv
    exact enumSchema_valid hu2 (enumEntries_covers _ hp hu1 _ (by simp) _ _ _ hq)
  | @ref e k r p hd hres hr ih =>
    cases p with
    | value f t n =>
      intro v s rq hv hs
      rw [JsonValue.full_value, JsonValue.valueStep, hd] at hv
      rw [full_schema, schemaStep, hd] at hs
      simp only [hres] at hv hs
      exact ih v s rq hv hs
    | content f ns =>
      intro obj obj' q q' t n rq hv hs
      rw [JsonValue.full_property, JsonValue.propertyStep, hd] at hv
      rw [full_property, propertyStep, hd] at hs
      simp only [hres] at hv hs
      exact ih obj obj' q q' t n rq hv hs
  | @holder e d p hd hh hr ih =>
    cases p with
    | value f t n =>
      intro v s rq hv hs
      rw [JsonValue.full_value, JsonValue.valueStep, hd] at hv
      rw [full_schema, schemaStep, hd] at hs
      simp only [hh, ↓reduceIte] at hv hs
      exact ih v s rq hv hs
    | content f ns =>
      intro obj obj' q q' t n rq hv hs
      rw [JsonValue.full_property, JsonValue.propertyStep, hd] at hv
      rw [full_property, propertyStep, hd] at hs
      simp only [hh, ↓reduceIte] at hv hs
      exact ih obj obj' q q' t n rq hv hs
  | @extend e es m p hd hm hr ih =>
    cases p with
    | value f t n =>
      intro v s rq hv hs
      rw [JsonValue.full_value, JsonValue.valueStep, hd] at hv
      rw [full_schema, schemaStep, hd] at hs
      simp only [hm] at hv hs
      exact ih v s rq hv hs
    | content f ns =>
      intro obj obj' q q' t n rq hv hs
      rw [JsonValue.full_property, JsonValue.propertyStep, hd] at hv
      rw [full_property, propertyStep, hd] at hs
      simp only [hm] at hv hs
      exact ih obj obj' q q' t n rq hv hs
  | @property e f k v hp hvar hr ih =>
    intro obj obj' q q' t n rq hv hs hn hk
    obtain ⟨key, hd, hkd, hkh, hk0⟩ := hp
    rw [JsonValue.full_property, JsonValue.propertyStep, hd] at hv
    rw [full_property, propertyStep, hd] at hs
    simp only [hvar, Bool.false_eq_true, ↓reduceIte] at hs
    obtain ⟨x, hx, hs⟩ := bind_ok.1 hs
    cases hs
    obtain ⟨s, hsch, hx⟩ := bind_ok.1 hx
    cases hx
    have hkey : keyOf key = k := by simp [keyOf, hkd, hkh]
    simp only [JsonValue.renderKey_string hkd hkh] at hv
    rw [hkey]
    split at hv
    · rename_i hopt
      cases hv
      simp only [Bool.and_eq_true] at hopt
      refine ⟨[], [(k, .obj s)], [], by simp, ?_, ⟨by simp, by simp, by simp, by simp⟩⟩
      simp [ObjectSchema.add, memberFlags, hopt.1]
    · obtain ⟨_, hkk, hv⟩ := bind_ok.1 hv
      cases hkk
      rw [if_neg (by simpa using hk0)] at hv
      obtain ⟨w, hw, hv⟩ := bind_ok.1 hv
      cases hv
      rw [JsonValue.emplaceUnique_new _ _ _ (hk k (by simp))]
      have hok := ih w s _ (by simpa [JsonValue.update] using hw) hsch
      refine ⟨[(k, w)], [(k, .obj s)], if (memberFlags e ⟨f, t, n, rq⟩).required then [.str k] else [], rfl, ?_,
        ⟨by simp, by simpa using hok, ?_, by simp⟩⟩
      · simp only [ObjectSchema.add]
        split <;> simp
      · intro r hr'
        split at hr' <;> simp at hr'
        exact ⟨k, by simp, hr'⟩
  | @mixin e f es names hd hh hi hr ih =>
    intro obj obj' q q' t n rq hv hs hn hk
    rw [JsonValue.full_property, JsonValue.propertyStep, hd] at hv
    rw [full_property, propertyStep, hd] at hs
    simp only [Elem.empty, hh, Bool.not_true, Bool.false_eq_true, ↓reduceIte] at hs
    obtain ⟨x, hx, hv⟩ := bind_ok.1 hv
    rw [JsonValue.valueStep, hd] at hx
    simp only [Elem.empty, hh, Bool.not_true, Bool.false_eq_true, ↓reduceIte] at hx
    obtain ⟨ms, hm, hx⟩ := bind_ok.1 hx
    cases hx
    cases hv
    obtain ⟨ms', ps, rs, h1, h2, ha⟩ := mixinLoop_ok (JsonValue.update e ⟨f, false⟩) _ names rfl es hi ih [] ms q q' hm hs hn (by simp)
    simp only [List.nil_append] at h1
    subst h1
    refine ⟨ms, ps, rs, mixin_new ms obj (hn.sublist ha.unique) (fun k hk' => hk k (ha.unique.subset hk')), h2, ha⟩
  | @mixinUnset e f es hd hu =>
    intro obj obj' q q' t n rq hv hs hn hk
    rw [JsonValue.full_property, JsonValue.propertyStep, hd] at hv
    rw [full_property, propertyStep, hd] at hs
    simp only [Elem.empty, hu.1, Bool.not_false, ↓reduceIte] at hs
    cases hs
    obtain ⟨x, hx, hv⟩ := bind_ok.1 hv
    rw [JsonValue.valueStep, hd] at hx
    simp only [Elem.empty, hu.1, Bool.not_false, ↓reduceIte] at hx
    refine ⟨[], [], [], ?_, by simp [ObjectSchema.add], Added.nil⟩
    rcases unset_value hu hx with rfl | ⟨rfl, _⟩
    · cases hv; simp [JsonValue.mixin]
    · cases hv; simp

/-- The body is valid against the schema. -/
theorem generate_valid {e : Elem} (h : Regular (.value false false false) e) {v s : Value} (hv : JsonValue.generateJsonValue e = .ok v)
    (hs : generateJsonSchema e = .ok s) : Valid re s v := by
  obtain ⟨a, rfl, _, ha, _⟩ := generate_good False (fun h => h.elim) hs
  have := regular_ok (re := re) h v a false hv ha
  rw [valid_obj] at this ⊢
  intro p hp
  have head : ∀ q, ValidKeyword re a q v → ValidKeyword re ((str "$schema", .str (str "http://json-schema.org/draft-07/schema#")) :: a) q v := by
    rintro ⟨k, x⟩ hq
    simpa +decide [ValidKeyword, Declared] using hq
  rcases List.mem_cons.1 hp with rfl | hp
  · simp +decide [ValidKeyword]
  · exact head p (this p hp)

end Verif.JsonSchema
