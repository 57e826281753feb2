import Verif.Proof.JsonSchema
import Verif.Spec.Tidy
import Mathlib.Data.List.Nodup
/-! The form of generated schemas. -/
namespace Verif.JsonSchema
open Verif Verif.Refract Verif.Spec
open Verif.JsonValue (bind_ok bind_fuel bind_congr map_fuel map_ok asArray_weight)

section
variable {P : Entries → Prop}

theorem everyKeywords_iff {ms : Entries} : EveryKeywords P ms ↔ ∀ p ∈ ms, EveryKeyword P p := by
  induction ms with
  | nil => simp [EveryKeywords]
  | cons p r ih => simp [EveryKeywords, ih]

theorem everyElements_iff {es : List Value} : EveryElements P es ↔ ∀ v ∈ es, Every P v := by
  induction es with
  | nil => simp [EveryElements]
  | cons p r ih => simp [EveryElements, ih]

theorem everyMembers_iff {ms : Entries} : EveryMembers P ms ↔ ∀ p ∈ ms, Every P p.2 := by
  induction ms with
  | nil => simp [EveryMembers]
  | cons p r ih => obtain ⟨k, v⟩ := p; simp [EveryMembers, EveryMemberValue, ih]
end

section
variable {P Q : Entries → Prop} (h : ∀ ms, P ms → Q ms)
include h
mutual
theorem every_mono : ∀ v, Every P v → Every Q v
  | .tru, _ => trivial
  | .fls, _ => trivial
  | .obj ms, hv => ⟨h _ hv.1, everyKeywords_mono ms hv.2⟩
  | .null, hv => hv.elim
  | .str _, hv => hv.elim
  | .num _, hv => hv.elim
  | .arr _, hv => hv.elim
termination_by structural v => v
theorem everyKeywords_mono : ∀ ms, EveryKeywords P ms → EveryKeywords Q ms
  | [], _ => trivial
  | p :: r, hv => ⟨everyKeyword_mono p hv.1, everyKeywords_mono r hv.2⟩
termination_by structural v => v
theorem everyKeyword_mono : ∀ p, EveryKeyword P p → EveryKeyword Q p
  | (_, x), hv => ⟨fun hk => everyMember_mono x (hv.1 hk), fun hk => every_mono x (hv.2.1 hk), fun hk => everyItem_mono x (hv.2.2.1 hk),
      fun hk => everyElement_mono x (hv.2.2.2 hk)⟩
termination_by structural v => v
theorem everyMember_mono : ∀ v, EveryMember P v → EveryMember Q v
  | .obj ms, hv => everyMembers_mono ms hv
  | .null, hv => hv.elim
  | .tru, hv => hv.elim
  | .fls, hv => hv.elim
  | .str _, hv => hv.elim
  | .num _, hv => hv.elim
  | .arr _, hv => hv.elim
termination_by structural v => v
theorem everyMembers_mono : ∀ ms, EveryMembers P ms → EveryMembers Q ms
  | [], _ => trivial
  | p :: r, hv => ⟨everyMemberValue_mono p hv.1, everyMembers_mono r hv.2⟩
termination_by structural v => v
theorem everyMemberValue_mono : ∀ p, EveryMemberValue P p → EveryMemberValue Q p
  | (_, v), hv => every_mono v hv
termination_by structural v => v
theorem everyItem_mono : ∀ v, EveryItem P v → EveryItem Q v
  | .tru, _ => trivial
  | .fls, _ => trivial
  | .obj ms, hv => ⟨h _ hv.1, everyKeywords_mono ms hv.2⟩
  | .arr es, hv => everyElements_mono es hv
  | .null, hv => hv.elim
  | .str _, hv => hv.elim
  | .num _, hv => hv.elim
termination_by structural v => v
theorem everyElement_mono : ∀ v, EveryElement P v → EveryElement Q v
  | .arr es, hv => everyElements_mono es hv
  | .null, hv => hv.elim
  | .tru, hv => hv.elim
  | .fls, hv => hv.elim
  | .str _, hv => hv.elim
  | .num _, hv => hv.elim
  | .obj _, hv => hv.elim
termination_by structural v => v
theorem everyElements_mono : ∀ es, EveryElements P es → EveryElements Q es
  | [], _ => trivial
  | v :: r, hv => ⟨every_mono v hv.1, everyElements_mono r hv.2⟩
termination_by structural v => v
end
end

/-- The conditions for the keywords of a schema; the second part only if `strict`. -/
def Ok (strict : Prop) (ms : Entries) : Prop := Formed ms ∧ (strict → Proper ms)

/-- The entries are the keywords of a schema that is all right. -/
def Good (strict : Prop) (a : Entries) : Prop :=
  Every (Ok strict) (.obj a) ∧ str "$schema" ∉ a.map (·.1) ∧ (str "anyOf" ∈ a.map (·.1) → a.length = 1)

theorem Good.every {strict : Prop} {a : Entries} (h : Good strict a) : Every (Ok strict) (.obj a) := h.1

theorem good_nil (strict : Prop) : Good strict [] := by
  refine ⟨⟨⟨⟨?_, ?_, ?_, ?_, ?_⟩, fun _ => ⟨?_, ?_, ?_, ?_⟩⟩, ?_⟩, ?_, ?_⟩ <;> simp [EveryKeywords]

theorem good_type (strict : Prop) {t : Bytes} (ht : ∃ v, HasType t v) : Good strict [(str "type", .str t)] := by
  refine ⟨⟨⟨⟨?_, ?_, ?_, ?_, ?_⟩, fun _ => ⟨?_, ?_, ?_, ?_⟩⟩, ?_⟩, ?_, ?_⟩
  · simp
  · intro x hx; simp at hx; exact ⟨t, hx, ht⟩
  · simp +decide
  · simp +decide
  · simp +decide
  · simp +decide
  · simp +decide
  · simp +decide
  · simp
  · simp +decide [EveryKeywords, EveryKeyword]
  · simp +decide
  · simp +decide

theorem good_const (strict : Prop) (v : Value) : Good strict [(str "const", v)] := by
  refine ⟨⟨⟨⟨?_, ?_, ?_, ?_, ?_⟩, fun _ => ⟨?_, ?_, ?_, ?_⟩⟩, ?_⟩, ?_, ?_⟩ <;> try (simp +decide; done)
  · intro k es h h'
    simp only [List.mem_singleton, Prod.mk.injEq] at h
    obtain ⟨rfl, _⟩ := h
    simp +decide at h'
  · simp +decide [EveryKeywords, EveryKeyword]

theorem good_enum (strict : Prop) (vs : List Value) (h : strict → vs ≠ []) : Good strict [(str "enum", .arr vs)] := by
  refine ⟨⟨⟨⟨?_, ?_, ?_, ?_, ?_⟩, fun hs => ⟨?_, ?_, ?_, ?_⟩⟩, ?_⟩, ?_, ?_⟩ <;> try (simp +decide; done)
  · simpa using h hs
  · simp +decide [EveryKeywords, EveryKeyword]

theorem good_alternatives (strict : Prop) {k : Bytes} (hk : k = str "anyOf" ∨ k = str "allOf" ∨ k = str "oneOf") (vs : List Value)
    (h : strict → vs ≠ []) (hv : ∀ v ∈ vs, Every (Ok strict) v) : Good strict [(k, .arr vs)] := by
  refine ⟨⟨⟨⟨?_, ?_, ?_, ?_, ?_⟩, fun hs => ⟨?_, ?_, ?_, ?_⟩⟩, ?_⟩, ?_, ?_⟩ <;> try (rcases hk with rfl | rfl | rfl <;> simp +decide; done)
  · intro k es h' _
    simp only [List.mem_singleton, Prod.mk.injEq, So.Value.arr.injEq] at h'
    rw [h'.2]; exact h hs
  · have : EveryElement (Ok strict) (.arr vs) := everyElements_iff.2 hv
    rcases hk with rfl | rfl | rfl <;> simp +decide [EveryKeywords, EveryKeyword, this]

theorem good_addEnum (strict : Prop) (vs : List Value) (h : strict → vs ≠ []) : Good strict (addEnum [] vs) := by
  unfold addEnum
  split
  · exact good_const strict _
  · exact good_enum strict _ h

theorem typeSchema_good (strict : Prop) {t : Bytes} (ht : ∃ v, HasType t v) : Every (Ok strict) (typeSchema t) := (good_type strict ht).1

theorem good_wrap (strict : Prop) (s : Entries) (o : Flags) {a : Entries} (h : Good strict a) :
    ∃ b, wrapNullable s o a = s ++ b ∧ Good strict b := by
  unfold wrapNullable
  split
  · refine ⟨_, rfl, good_alternatives strict (.inl rfl) _ (by simp) ?_⟩
    intro v hv
    simp only [List.mem_cons, List.not_mem_nil, or_false] at hv
    rcases hv with rfl | rfl
    · exact typeSchema_good strict ⟨.null, rfl⟩
    · exact h.1
  · exact ⟨a, rfl, h⟩

theorem addEnum_eq (s : Entries) (vs : List Value) : addEnum s vs = s ++ addEnum [] vs := by
  unfold addEnum; split <;> simp

theorem good_primitive (strict : Prop) (s : Entries) (e : Elem) (o : Flags) {t : Bytes} (ht : ∃ v, HasType t v) :
    ∃ a, schemaPrimitive s e o t = s ++ a ∧ Good strict a := by
  unfold schemaPrimitive
  dsimp only
  split
  · rw [addEnum_eq]
    exact ⟨_, rfl, good_addEnum strict _ (by split <;> simp)⟩
  · split
    · refine ⟨_, rfl, good_alternatives strict (.inl rfl) _ (by simp) ?_⟩
      intro v hv
      simp only [List.mem_cons, List.not_mem_nil, or_false] at hv
      rcases hv with rfl | rfl
      · exact typeSchema_good strict ⟨.null, rfl⟩
      · exact typeSchema_good strict ht
    · exact ⟨_, rfl, good_type strict ht⟩

/-! ## Objects -/

/-- The parts of the schema of an object that are collected so far. -/
structure GoodO (strict : Prop) (q : ObjectSchema) : Prop where
  properties : ∀ p ∈ q.properties, Every (Ok strict) p.2
  patterns : ∀ p ∈ q.patternProperties, Every (Ok strict) p.2
  unique : (q.patternProperties.map (·.1)).Nodup
  all : ∀ v ∈ q.allOf, Every (Ok strict) v
  required : ∃ l : List Bytes, q.required = l.map .str ∧ l.Sublist (q.properties.map (·.1))

theorem goodO_nil (strict : Prop) : GoodO strict {} :=
  ⟨by simp, by simp, by simp, by simp, [], rfl, by simp⟩

private theorem mem_if {c : Prop} [Decidable c] {p x : Bytes × Value} (h : p ∈ (if c then [] else [x])) : ¬ c ∧ p = x := by
  split at h
  · simp at h
  · simp at h; exact ⟨‹_›, h⟩

theorem keys_materialize (q : ObjectSchema) : ((materialize q).map (·.1)).Sublist
    [str "properties", str "patternProperties", str "allOf", str "required"] := by
  unfold materialize
  simp only [List.map_append]
  refine List.Sublist.append (l₂ := [_, _, _]) (r₂ := [_]) (List.Sublist.append (l₂ := [_, _]) (r₂ := [_]) (List.Sublist.append (l₂ := [_]) (r₂ := [_]) ?_ ?_) ?_) ?_ <;>
  · split <;> simp

theorem mem_materialize {q : ObjectSchema} {p : Bytes × Value} (h : p ∈ materialize q) :
    (p = (str "properties", .obj q.properties)) ∨ (p = (str "patternProperties", .obj q.patternProperties)) ∨
    (q.allOf ≠ [] ∧ p = (str "allOf", .arr q.allOf)) ∨ (q.required ≠ [] ∧ p = (str "required", .arr q.required)) := by
  unfold materialize at h
  simp only [List.mem_append] at h
  rcases h with ((h | h) | h) | h
  · exact .inl (mem_if h).2
  · exact .inr (.inl (mem_if h).2)
  · exact .inr (.inr (.inl ⟨by simpa using (mem_if h).1, (mem_if h).2⟩))
  · exact .inr (.inr (.inr ⟨by simpa using (mem_if h).1, (mem_if h).2⟩))

/-- The keywords of the schema of an object: `pre` and `post` are those that do not depend on its contents. -/
theorem good_object (strict : Prop) {q : ObjectSchema} (h : GoodO strict q) (hn : strict → (q.properties.map (·.1)).Nodup)
    (pre post : Entries) (hpre : pre = [] ∨ pre = [(str "type", .str (str "object"))])
    (hpost : post = [] ∨ post = [(str "additionalProperties", .fls)]) : Good strict (pre ++ materialize q ++ post) := by
  have hk : ((pre ++ materialize q ++ post).map (·.1)).Sublist
      ([str "type"] ++ [str "properties", str "patternProperties", str "allOf", str "required"] ++ [str "additionalProperties"]) := by
    simp only [List.map_append]
    refine ((List.Sublist.append ?_ (keys_materialize q)).append ?_)
    · rcases hpre with rfl | rfl <;> simp
    · rcases hpost with rfl | rfl <;> simp
  have hm : ∀ p ∈ pre ++ materialize q ++ post, p = (str "type", .str (str "object")) ∨ p = (str "additionalProperties", .fls) ∨
      (p = (str "properties", .obj q.properties)) ∨ (p = (str "patternProperties", .obj q.patternProperties)) ∨
      (q.allOf ≠ [] ∧ p = (str "allOf", .arr q.allOf)) ∨ (q.required ≠ [] ∧ p = (str "required", .arr q.required)) := by
    intro p hp
    simp only [List.mem_append] at hp
    rcases hp with (hp | hp) | hp
    · rcases hpre with rfl | rfl <;> simp at hp; exact .inl hp
    · exact .inr (.inr (mem_materialize hp))
    · rcases hpost with rfl | rfl <;> simp at hp; exact .inr (.inl hp)
  obtain ⟨l, hl, hls⟩ := h.required
  refine ⟨⟨⟨⟨hk.nodup (by decide), ?_, ?_, ?_, ?_⟩, fun hs => ⟨?_, ?_, ?_, ?_⟩⟩, ?_⟩, ?_, ?_⟩
  · intro x hx
    have := hm _ hx
    simp +decide at this
    exact ⟨_, this, .obj [], rfl⟩
  · rintro x (hx | hx) <;>
    · have := hm _ hx
      simp +decide at this
  · intro x hx
    have := hm _ hx
    simp +decide at this
    refine ⟨_, this.2, ?_⟩
    intro r hr
    rw [hl] at hr
    obtain ⟨k, hk', rfl⟩ := List.mem_map.1 hr
    refine ⟨k, rfl, q.properties, ?_, hls.subset hk'⟩
    have hne : q.properties ≠ [] := by
      intro h0; rw [h0] at hls; simp at hls; rw [hls] at hk'; simp at hk'
    simp [materialize, hne]
  · intro ps hx
    have := hm _ hx
    simp +decide at this
    rw [this]; exact h.unique
  · intro ps hx
    have := hm _ hx
    simp +decide at this
    rw [this]; exact hn hs
  · intro rs hx
    have := hm _ hx
    simp +decide at this
    rw [this.2, hl]
    exact List.Nodup.map (fun a b h => by injection h) ((hn hs).sublist hls)
  · intro hx
    have := hm _ hx
    simp +decide at this
  · intro k es hx hk'
    have := hm _ hx
    rcases this with h1 | h1 | h1 | h1 | ⟨h0, h1⟩ | ⟨h0, h1⟩ <;> simp only [Prod.mk.injEq, So.Value.arr.injEq, reduceCtorEq, and_false] at h1
    · rw [h1.2]; exact h0
    · rw [h1.2]; exact h0
  · rw [everyKeywords_iff]
    intro p hp
    rcases hm p hp with rfl | rfl | rfl | rfl | ⟨_, rfl⟩ | ⟨_, rfl⟩
    · simp +decide [EveryKeyword]
    · simp +decide [EveryKeyword, Every]
    · simp +decide [EveryKeyword, EveryMember, everyMembers_iff]
      exact fun a b hab => h.properties (a, b) hab
    · simp +decide [EveryKeyword, EveryMember, everyMembers_iff]
      exact fun a b hab => h.patterns (a, b) hab
    · simp +decide [EveryKeyword, EveryElement, everyElements_iff]
      exact h.all
    · simp +decide [EveryKeyword]
  · intro hc
    exact absurd (hk.subset hc) (by decide)
  · intro hc
    exact absurd (hk.subset hc) (by decide)

/-! ## Arrays and enumerations -/

theorem emplaceUniqueA_mem {c : List Value} {v x : Value} (h : x ∈ So.emplaceUniqueA c v) : x ∈ c ∨ x = v := by
  unfold So.emplaceUniqueA at h
  split at h
  · exact .inl h
  · simpa using h

theorem emplaceUniqueA_ne (c : List Value) (v : Value) : So.emplaceUniqueA c v ≠ [] := by
  unfold So.emplaceUniqueA
  split
  · rintro rfl; simp at *
  · simp

theorem emplaceAll_mem {x : Value} (vs : List Value) : ∀ c, x ∈ emplaceAll c vs → x ∈ c ∨ x ∈ vs := by
  induction vs with
  | nil => intro c h; exact .inl h
  | cons v vs ih =>
    intro c h
    rcases ih _ h with h | h
    · rcases emplaceUniqueA_mem h with h | rfl
      · exact .inl h
      · simp
    · simp [h]

theorem emplaceAll_ne (vs : List Value) : ∀ c, c ≠ [] ∨ vs ≠ [] → emplaceAll c vs ≠ [] := by
  induction vs with
  | nil => intro c h; simpa [emplaceAll] using h
  | cons v vs ih => intro c _; exact ih _ (.inl (emplaceUniqueA_ne _ _))

private theorem decimal_count (n : Nat) : IsCount (.num (decimal n)) n := rfl

theorem good_arrayEmpty (strict : Prop) : Good strict [(str "type", .str (str "array")), (str "maxItems", .num (decimal 0))] := by
  refine ⟨⟨⟨⟨?_, ?_, ?_, ?_, ?_⟩, fun _ => ⟨?_, ?_, ?_, ?_⟩⟩, ?_⟩, ?_, ?_⟩ <;> try (simp +decide; done)
  · intro x hx; simp +decide at hx; exact ⟨_, hx, .arr [], rfl⟩
  · intro x hx; simp +decide at hx; exact ⟨0, hx⟩
  · simp +decide [EveryKeywords, EveryKeyword]

theorem good_arrayItems (strict : Prop) {v : Value} (h : Every (Ok strict) v) :
    Good strict [(str "type", .str (str "array")), (str "items", v)] := by
  have hi : EveryItem (Ok strict) v := by
    cases v <;> simp_all [Every, EveryItem]
  refine ⟨⟨⟨⟨?_, ?_, ?_, ?_, ?_⟩, fun _ => ⟨?_, ?_, ?_, ?_⟩⟩, ?_⟩, ?_, ?_⟩ <;> try (simp +decide; done)
  · intro x hx; simp +decide at hx; exact ⟨_, hx, .arr [], rfl⟩
  · intro k es hk hk'
    rcases hk' with rfl | rfl | rfl <;> simp +decide at hk
  · simp +decide [EveryKeywords, EveryKeyword, hi]

theorem good_arrayTuple (strict : Prop) {vs : List Value} (h : ∀ v ∈ vs, Every (Ok strict) v) :
    Good strict [(str "type", .str (str "array")), (str "minItems", .num (decimal vs.length)), (str "items", .arr vs),
        (str "additionalItems", .fls)] := by
  have hi : EveryItem (Ok strict) (.arr vs) := everyElements_iff.2 h
  refine ⟨⟨⟨⟨?_, ?_, ?_, ?_, ?_⟩, fun _ => ⟨?_, ?_, ?_, ?_⟩⟩, ?_⟩, ?_, ?_⟩ <;> try (simp +decide; done)
  · intro x hx; simp +decide at hx; exact ⟨_, hx, .arr [], rfl⟩
  · intro x hx; simp +decide at hx; exact ⟨_, hx⟩
  · simp +decide [EveryKeywords, EveryKeyword, hi, Every]

/-- What the recursive calls on elements lighter than `w` guarantee. -/
def Holds (strict : Prop) (w : Nat) (c : Calls) : Prop :=
  ∀ x, weight x < w →
    (∀ s o s', c.schema s x o = .ok s' → (strict → Tidy none x) → ∃ a, s' = s ++ a ∧ Good strict a) ∧
    (∀ q o q' ns, c.property q x o = .ok q' → GoodO strict q → (strict → Tidy (some ns) x) →
      GoodO strict q' ∧ (strict → q'.properties.map (·.1) = q.properties.map (·.1) ++ ns))

variable {strict : Prop} {c : Calls} {w : Nat}

theorem makeSchema_good (h : Holds strict w c) {e : Elem} (he : weight e < w) {o : Flags} {v : Value}
    (hv : makeSchema c e o = .ok v) (ht : strict → Tidy none e) : ∃ a, v = .obj a ∧ Good strict a := by
  unfold makeSchema at hv
  obtain ⟨s, hs, hv⟩ := bind_ok.1 hv
  obtain ⟨a, ha, hg⟩ := (h e he).1 _ _ _ hs ht
  cases hv
  exact ⟨a, by simp [ha], hg⟩

theorem itemSchemas_good (h : Holds strict w c) (o : Flags) (es : List Elem) (hes : weightList es < w)
    (ht : strict → ∀ x ∈ es, Tidy none x) : ∀ vs, itemSchemas c o es = .ok vs → vs.length = es.length ∧ ∀ v ∈ vs, Every (Ok strict) v := by
  induction es with
  | nil => intro vs h; simp [itemSchemas] at h; subst h; simp
  | cons e es ih =>
    intro vs hv
    rw [weightList] at hes
    simp only [itemSchemas] at hv
    obtain ⟨o', _, hv⟩ := bind_ok.1 hv
    obtain ⟨v, h1, hv⟩ := bind_ok.1 hv
    obtain ⟨vs', h2, hv⟩ := bind_ok.1 hv
    cases hv
    obtain ⟨i1, i2⟩ := ih (by omega) (fun s x hx => ht s x (by simp [hx])) vs' h2
    obtain ⟨a, rfl, hg⟩ := makeSchema_good h (by omega) h1 (fun s => ht s e (by simp))
    refine ⟨by simp [i1], ?_⟩
    intro v hv
    rcases List.mem_cons.1 hv with rfl | hv
    · exact hg.1
    · exact i2 v hv

theorem arrayEntries_good (h : Holds strict w c) (e : Elem) (es : List Elem) (hes : weightList es < w) (o : Flags)
    (ht : strict → e.has = true → es ≠ [] ∧ ∀ x ∈ es, Tidy none x) {a : Entries} (ha : arrayEntries c e es o = .ok a) : Good strict a := by
  unfold arrayEntries at ha
  split at ha
  · split at ha
    · cases ha; exact good_arrayEmpty strict
    · rename_i hem
      have hh : e.has = true := by simpa [Elem.empty] using hem
      split at ha
      · rename_i x
        simp only [weightList] at hes
        obtain ⟨o', _, ha⟩ := bind_ok.1 ha
        obtain ⟨v, h1, ha⟩ := bind_ok.1 ha
        cases ha
        obtain ⟨a, rfl, hg⟩ := makeSchema_good h (by omega) h1 (fun s => (ht s hh).2 x (by simp))
        exact good_arrayItems strict hg.1
      · obtain ⟨vs, h1, ha⟩ := bind_ok.1 ha
        cases ha
        obtain ⟨i1, i2⟩ := itemSchemas_good h o es hes (fun s => (ht s hh).2) vs h1
        refine good_arrayItems strict (good_alternatives strict (.inl rfl) _ ?_ ?_).1
        · intro s
          apply emplaceAll_ne
          right
          rintro rfl
          exact (ht s hh).1 (List.length_eq_zero_iff.1 i1.symm)
        · intro v hv
          rcases emplaceAll_mem _ _ hv with hv | hv
          · simp at hv
          · exact i2 v hv
  · split at ha
    · obtain ⟨vs, h1, ha⟩ := bind_ok.1 ha
      cases ha
      refine good_arrayTuple strict ?_
      split at h1
      · rename_i hh; exact (itemSchemas_good h o es hes (fun s => (ht s hh).2) vs h1).2
      · exact (itemSchemas_good h o [] (by simp [weightList]; omega) (by simp) vs h1).2
    · cases ha; exact good_type strict ⟨.arr [], rfl⟩

theorem sortSchema_good {enm anyOf : List Value} {s : Entries} (hs : Good strict s) (ha : ∀ v ∈ anyOf, Every (Ok strict) v) :
    (∀ v ∈ (sortSchema enm anyOf s).2, Every (Ok strict) v) ∧
    (strict → (sortSchema enm anyOf s).1 ≠ [] ∨ (sortSchema enm anyOf s).2 ≠ []) ∧
    (enm ≠ [] ∨ anyOf ≠ [] → (sortSchema enm anyOf s).1 ≠ [] ∨ (sortSchema enm anyOf s).2 ≠ []) := by
  have hu : ∀ v ∈ So.emplaceUniqueA anyOf (.obj s), Every (Ok strict) v := by
    intro v hv
    rcases emplaceUniqueA_mem hv with hv | rfl
    · exact ha v hv
    · exact hs.1
  unfold sortSchema
  split
  · rename_i k vals
    split
    · rename_i hk
      subst hk
      refine ⟨ha, fun st => .inl (emplaceAll_ne _ _ (.inr ?_)), ?_⟩
      · rintro rfl
        exact (hs.1.1.2 st).enum (by simp)
      · rintro (h | h)
        · exact .inl (emplaceAll_ne _ _ (.inl h))
        · exact .inr h
    · split
      · rename_i hk
        subst hk
        refine ⟨?_, fun st => .inr (emplaceAll_ne _ _ (.inr ?_)), ?_⟩
        · intro v hv
          rcases emplaceAll_mem _ _ hv with hv | hv
          · exact ha v hv
          · have := hs.1.2
            simp +decide [EveryKeywords, EveryKeyword, EveryElement, everyElements_iff] at this
            exact this v hv
        · rintro rfl
          exact (hs.1.1.2 st).alternatives _ [] (by simp) (.inl rfl) rfl
        · rintro (h | h)
          · exact .inl h
          · exact .inr (emplaceAll_ne _ _ (.inl h))
      · exact ⟨hu, fun _ => .inr (emplaceUniqueA_ne _ _), fun _ => .inr (emplaceUniqueA_ne _ _)⟩
  · exact ⟨hu, fun _ => .inr (emplaceUniqueA_ne _ _), fun _ => .inr (emplaceUniqueA_ne _ _)⟩

theorem enumEntries_good (h : Holds strict w c) (o : Flags) (es : List Elem) (hes : weightList es < w) (ht : strict → ∀ x ∈ es, Tidy none x) :
    ∀ (enm anyOf : List Value) p, enumEntries c o enm anyOf es = .ok p → (∀ v ∈ anyOf, Every (Ok strict) v) →
      (∀ v ∈ p.2, Every (Ok strict) v) ∧ (enm ≠ [] ∨ anyOf ≠ [] → p.1 ≠ [] ∨ p.2 ≠ []) ∧
      (strict → es ≠ [] → p.1 ≠ [] ∨ p.2 ≠ []) := by
  induction es with
  | nil => intro enm anyOf p hp ha; simp [enumEntries] at hp; subst hp; exact ⟨ha, id, by simp⟩
  | cons e es ih =>
    intro enm anyOf p hp ha
    rw [weightList] at hes
    simp only [enumEntries] at hp
    obtain ⟨size, _, hp⟩ := bind_ok.1 hp
    have ih := ih (by omega) (fun s x hx => ht s x (by simp [hx]))
    split at hp
    · obtain ⟨v, _, hp⟩ := bind_ok.1 hp
      obtain ⟨i1, i2, _⟩ := ih _ _ _ hp ha
      exact ⟨i1, fun _ => i2 (.inl (emplaceUniqueA_ne _ _)), fun _ _ => i2 (.inl (emplaceUniqueA_ne _ _))⟩
    · obtain ⟨s, hs, hp⟩ := bind_ok.1 hp
      obtain ⟨a, hsa, hg⟩ := (h e (by omega)).1 _ _ _ hs (fun st => ht st e (by simp))
      simp only [List.nil_append] at hsa
      subst hsa
      obtain ⟨j1, j2, j3⟩ := sortSchema_good (enm := enm) hg ha
      obtain ⟨i1, i2, _⟩ := ih _ _ _ hp j1
      exact ⟨i1, fun hh => i2 (j3 hh), fun st _ => i2 (j2 st)⟩

theorem enumSchema_good (s : Entries) {enm anyOf : List Value} (ha : ∀ v ∈ anyOf, Every (Ok strict) v)
    (hn : strict → enm ≠ [] ∨ anyOf ≠ []) : ∃ a, enumSchema s enm anyOf = s ++ a ∧ Good strict a := by
  unfold enumSchema
  split
  · rename_i he
    rw [addEnum_eq]
    refine ⟨_, rfl, good_addEnum strict _ fun st => ?_⟩
    rcases hn st with h | h
    · exact h
    · simp at he; exact absurd he h
  · rename_i he
    refine ⟨_, rfl, good_alternatives strict (.inl rfl) _ ?_ ?_⟩
    · intro _
      split
      · simpa using he
      · exact emplaceUniqueA_ne _ _
    · intro v hv
      split at hv
      · exact ha v hv
      · rename_i hne
        rcases emplaceUniqueA_mem hv with hv | rfl
        · exact ha v hv
        · exact (good_addEnum strict _ fun _ => by simpa using hne).1

/-! ## Properties -/

theorem properties_good (h : Holds strict w c) (o : Flags) (es : List Elem) (hes : weightList es < w) (f : Elem → List Bytes)
    (ht : strict → ∀ x ∈ es, Tidy (some (f x)) x) : ∀ q q', properties c o q es = .ok q' → GoodO strict q →
      GoodO strict q' ∧ (strict → q'.properties.map (·.1) = q.properties.map (·.1) ++ es.flatMap f) := by
  induction es with
  | nil => intro q q' hq hg; simp [properties] at hq; subst hq; exact ⟨hg, by simp⟩
  | cons e es ih =>
    intro q q' hq hg
    rw [weightList] at hes
    simp only [properties] at hq
    obtain ⟨o', _, hq⟩ := bind_ok.1 hq
    obtain ⟨q1, h1, hq⟩ := bind_ok.1 hq
    obtain ⟨g1, g2⟩ := (h e (by omega)).2 _ _ _ (f e) h1 hg (fun st => ht st e (by simp))
    obtain ⟨i1, i2⟩ := ih (by omega) (fun st x hx => ht st x (by simp [hx])) _ _ hq g1
    refine ⟨i1, fun st => ?_⟩
    rw [i2 st, g2 st]; simp

theorem optionEntries_good (h : Holds strict w c) (o : Flags) (es : List Elem) (hes : weightList es < w) (f : Elem → List Bytes)
    (ht : strict → ∀ x ∈ es, Tidy (some (f x)) x) : ∀ q q', optionEntries c o q es = .ok q' → GoodO strict q →
      GoodO strict q' ∧ (strict → q'.properties.map (·.1) = q.properties.map (·.1) ++ es.flatMap f) := by
  induction es with
  | nil => intro q q' hq hg; simp [optionEntries] at hq; subst hq; exact ⟨hg, by simp⟩
  | cons e es ih =>
    intro q q' hq hg
    rw [weightList] at hes
    simp only [optionEntries] at hq
    obtain ⟨q1, h1, hq⟩ := bind_ok.1 hq
    obtain ⟨g1, g2⟩ := (h e (by omega)).2 _ _ _ (f e) h1 hg (fun st => ht st e (by simp))
    obtain ⟨i1, i2⟩ := ih (by omega) (fun st x hx => ht st x (by simp [hx])) _ _ hq g1
    refine ⟨i1, fun st => ?_⟩
    rw [i2 st, g2 st]; simp

theorem mixinEntries_good (h : Holds strict w c) (o : Flags) (es : List Elem) (hes : weightList es < w) (f : Elem → List Bytes)
    (ht : strict → ∀ x ∈ es, Tidy (some (f x)) x) : ∀ q q', mixinEntries c o q es = .ok q' → GoodO strict q →
      GoodO strict q' ∧ (strict → q'.properties.map (·.1) = q.properties.map (·.1) ++ es.flatMap f) := by
  induction es with
  | nil => intro q q' hq hg; simp [mixinEntries] at hq; subst hq; exact ⟨hg, by simp⟩
  | cons e es ih =>
    intro q q' hq hg
    rw [weightList] at hes
    simp only [mixinEntries] at hq
    obtain ⟨q1, h1, hq⟩ := bind_ok.1 hq
    obtain ⟨g1, g2⟩ := (h e (by omega)).2 _ _ _ (f e) h1 hg (fun st => ht st e (by simp))
    obtain ⟨i1, i2⟩ := ih (by omega) (fun st x hx => ht st x (by simp [hx])) _ _ hq g1
    refine ⟨i1, fun st => ?_⟩
    rw [i2 st, g2 st]; simp

theorem optionSchemas_good (h : Holds strict w c) (o : Flags) (es : List Elem) (hes : weightList es < w) (f : Elem → List Bytes)
    (ht : strict → (∀ o ∈ es, ∀ os, o.data = .option os → ∀ x ∈ os, Tidy (some (f x)) x) ∧
      (∀ o ∈ es, ∀ os, o.data = .option os → (os.flatMap f).Nodup)) :
    ∀ vs, optionSchemas c o es = .ok vs → (∀ v ∈ vs, Every (Ok strict) v) ∧
      ((∃ o ∈ es, ∃ os, o.data = .option os ∧ o.has = true ∧ os ≠ []) → vs ≠ []) := by
  induction es with
  | nil => intro vs hv; simp [optionSchemas] at hv; subst hv; simp
  | cons e es ih =>
    intro vs hv
    rw [weightList] at hes
    simp only [optionSchemas] at hv
    have ih := ih (by omega) (fun st => ⟨fun o ho => (ht st).1 o (by simp [ho]), fun o ho => (ht st).2 o (by simp [ho])⟩)
    split at hv
    · rename_i os hd
      have hwe := weight_of_data hd
      simp only [weightData] at hwe
      split at hv
      · rename_i hem
        obtain ⟨i1, i2⟩ := ih vs hv
        refine ⟨i1, ?_⟩
        rintro ⟨o', ho', os', h1, h2, h3⟩
        rcases List.mem_cons.1 ho' with rfl | ho'
        · rw [hd] at h1; cases h1
          simp [Elem.empty, h2] at hem; exact absurd hem h3
        · exact i2 ⟨o', ho', os', h1, h2, h3⟩
      · obtain ⟨q, h1, hv⟩ := bind_ok.1 hv
        obtain ⟨vs', h2, hv⟩ := bind_ok.1 hv
        cases hv
        obtain ⟨i1, _⟩ := ih vs' h2
        obtain ⟨g1, g2⟩ := optionEntries_good h o os (by omega) f (fun st => (ht st).1 e (by simp) os hd) _ _ h1 (goodO_nil strict)
        refine ⟨?_, by simp⟩
        intro v hv
        rcases List.mem_cons.1 hv with rfl | hv
        · have := good_object strict g1 (fun st => by rw [g2 st]; simpa using (ht st).2 e (by simp) os hd) [] [] (.inl rfl) (.inl rfl)
          simpa using this.1
        · exact i1 v hv
    · cases hv

/-! ## The steps -/

theorem Tidy.object_inv {e : Elem} {es : List Elem} (h : Tidy none e) (hd : e.data = .object es) :
    (e.has = true → ∃ f : Elem → List Bytes, (∀ x ∈ es, Tidy (some (f x)) x) ∧ (es.flatMap f).Nodup) := by
  intro hh
  cases h with
  | object f hd' _ h1 h2 => rw [hd] at hd'; cases hd'; exact ⟨f, h1, h2⟩
  | _ => simp_all

theorem Tidy.array_inv {e : Elem} {es : List Elem} (h : Tidy none e) (hd : e.data = .array es) :
    e.has = true → es ≠ [] ∧ ∀ x ∈ es, Tidy none x := by
  intro hh
  cases h with
  | array hd' _ h1 h2 => rw [hd] at hd'; cases hd'; exact ⟨h1, h2⟩
  | _ => simp_all

theorem Tidy.enum_inv {e : Elem} {v : Option Elem} (h : Tidy none e) (hd : e.data = .enum v) :
    ∃ x es, Infos.find e.attributes (str "enumerations") = some x ∧ asArray x = some es ∧ x.has = true ∧ es ≠ [] ∧ ∀ y ∈ es, Tidy none y := by
  cases h with
  | enum hd' h1 h2 h3 h4 h5 => exact ⟨_, _, h1, by simp [asArray, h2], h3, h4, h5⟩
  | _ => simp_all

theorem Tidy.ref_inv {e : Elem} {k : Bytes} {p} (h : Tidy p e) (hd : e.data = .ref k) {r : Elem} (hr : resolve e = .ok r) : Tidy p r := by
  cases h with
  | ref _ h1 h2 => rw [hr] at h1; cases h1; exact h2
  | _ => simp_all

theorem Tidy.holder_inv {e : Elem} {d : Elem} {p} (h : Tidy p e) (hd : e.data = .holder (some d)) : Tidy p d := by
  cases h with
  | holder hd' _ h2 => rw [hd] at hd'; cases hd'; exact h2
  | _ => simp_all

theorem Tidy.extend_inv {e m : Elem} {es : List Elem} {p} (h : Tidy p e) (hd : e.data = .extend es) (hm : mergeF es = .ok m) : Tidy p m := by
  cases h with
  | extend hd' h1 h2 => rw [hd] at hd'; cases hd'; rw [hm] at h1; cases h1; exact h2
  | _ => simp_all

theorem schemaStep_good {e : Elem} (h : Holds strict (weight e) c) (ht : strict → Tidy none e) {s : Entries} {o : Flags} {s' : Entries}
    (hr : schemaStep c s e o = .ok s') : ∃ a, s' = s ++ a ∧ Good strict a := by
  have hw := weight_eq e
  have nil : ∃ a, s = s ++ a ∧ Good strict a := ⟨[], by simp, good_nil strict⟩
  unfold schemaStep at hr
  split at hr
  · rename_i d hd
    rw [hd] at hw; simp only [weightData] at hw
    cases d with
    | none => cases hr; exact nil
    | some d =>
      simp only [weightOpt] at hw; dsimp only at hr
      split at hr
      · exact (h d (by omega)).1 _ _ _ hr (fun st => Tidy.holder_inv (ht st) hd)
      · cases hr; exact nil
  · rename_i k hd
    obtain ⟨r, h1, hr⟩ := bind_ok.1 hr
    exact (h r (resolve_weight h1)).1 _ _ _ hr (fun st => Tidy.ref_inv (ht st) hd h1)
  · rename_i es hd
    rw [hd] at hw; simp only [weightData] at hw
    dsimp only at hr
    obtain ⟨q, h1, hr⟩ := bind_ok.1 hr
    cases hr
    have hq : GoodO strict q ∧ (strict → (q.properties.map (·.1)).Nodup) := by
      split at h1
      · cases h1; exact ⟨goodO_nil strict, by simp⟩
      · rename_i hem
        have hh : e.has = true := by simpa [Elem.empty] using hem
        obtain ⟨f, hf⟩ : ∃ f : Elem → List Bytes, strict → (∀ x ∈ es, Tidy (some (f x)) x) ∧ (es.flatMap f).Nodup := by
          by_cases st : strict
          · obtain ⟨f, hf⟩ := Tidy.object_inv (ht st) hd hh
            exact ⟨f, fun _ => hf⟩
          · exact ⟨fun _ => [], fun h => absurd h st⟩
        have := properties_good h (update e o) es (by omega) f (fun st => (hf st).1) _ _ h1 (goodO_nil strict)
        refine ⟨this.1, fun st => ?_⟩
        rw [this.2 st]
        simpa using (hf st).2
    exact good_wrap strict s _ (good_object strict hq.1 hq.2 _ _ (.inr rfl) (by split <;> simp))
  · rename_i es hd
    rw [hd] at hw; simp only [weightData] at hw
    dsimp only at hr
    obtain ⟨a, h1, hr⟩ := bind_ok.1 hr
    cases hr
    exact good_wrap strict s _ (arrayEntries_good h e es (by omega) _ (fun st => Tidy.array_inv (ht st) hd) h1)
  · rename_i v hd
    rw [hd] at hw; simp only [weightData] at hw
    dsimp only at hr
    split at hr
    · cases hr
      refine enumSchema_good s (by simp) (fun st => ?_)
      obtain ⟨x, es, h1, _⟩ := Tidy.enum_inv (ht st) hd
      simp_all
    · rename_i x hx
      have h1 := weightInfos_find hx
      split at hr
      · cases hr
      · rename_i es hes
        have h2 := asArray_weight hes
        obtain ⟨p, hp, hr⟩ := bind_ok.1 hr
        cases hr
        have := enumEntries_good h _ _ (by split; omega; simp only [weightList]; omega) (by
          intro st
          obtain ⟨x', es', h1, h2, h3, _, h5⟩ := Tidy.enum_inv (ht st) hd
          rw [hx] at h1; cases h1
          rw [hes] at h2; cases h2
          rw [if_pos h3]; exact h5) _ _ _ hp (by simp)
        refine enumSchema_good s this.1 (fun st => ?_)
        obtain ⟨x', es', h1, h2, h3, h4, h5⟩ := Tidy.enum_inv (ht st) hd
        rw [hx] at h1; cases h1
        rw [hes] at h2; cases h2
        exact this.2.2 st (by simpa [h3] using h4)
  · cases hr; exact ⟨_, rfl, good_type strict ⟨.null, rfl⟩⟩
  all_goals try (cases hr; exact ⟨_, rfl, good_alternatives strict (.inr (.inr rfl)) _ (by simp) (by
      intro v hv
      simp at hv; subst hv
      exact (good_nil strict).1)⟩)
  · cases hr; exact good_primitive strict s e o ⟨.str [], rfl⟩
  · cases hr; exact good_primitive strict s e o ⟨.num [], rfl⟩
  · cases hr; exact good_primitive strict s e o ⟨.tru, rfl⟩
  · rename_i es hd
    rw [hd] at hw; simp only [weightData] at hw
    obtain ⟨m, hm, hr⟩ := bind_ok.1 hr
    have := mergeF_weight hm
    exact (h m (by omega)).1 _ _ _ hr (fun st => Tidy.extend_inv (ht st) hd hm)

theorem addPattern_good {q : ObjectSchema} (h : GoodO strict q) (k : Bytes) {a : Entries} (ha : Good strict a) :
    GoodO strict { q with patternProperties := So.emplaceUnique q.patternProperties k (.obj a) } := by
  refine ⟨h.properties, ?_, JsonValue.emplaceUnique_nodup k _ h.unique, h.all, h.required⟩
  intro p hp
  rcases JsonValue.emplaceUnique_mem hp with hp | rfl
  · exact h.patterns p hp
  · exact ha.1

theorem propertyStep_good {e : Elem} (h : Holds strict (weight e) c) {ns : List Bytes} (ht : strict → Tidy (some ns) e) {q : ObjectSchema}
    {o : Flags} {q' : ObjectSchema} (hg : GoodO strict q) (hr : propertyStep c q e o = .ok q') :
    GoodO strict q' ∧ (strict → q'.properties.map (·.1) = q.properties.map (·.1) ++ ns) := by
  have hw := weight_eq e
  unfold propertyStep at hr
  split at hr
  all_goals try (cases hr; refine ⟨hg, fun st => ?_⟩; have := ht st; cases this <;> simp_all; done)
  · rename_i k v hd
    rw [hd] at hw; simp only [weightData] at hw
    dsimp only at hr
    split at hr
    · cases hr
    · rename_i k
      split at hr
      · rename_i hvar
        have hnil : strict → ns = [] ∧ ∀ v', v = some v' → Tidy none v' := by
          intro st
          have := ht st
          cases this with
          | pattern hd' h1 h2 => rw [hd] at hd'; cases hd'; exact ⟨rfl, fun v' h' => by cases h'; exact h2⟩
          | _ => simp_all
        obtain ⟨p, _, hr⟩ := bind_ok.1 hr
        cases p with
        | none => cases hr; exact ⟨hg, fun st => by simp [(hnil st).1]⟩
        | some p =>
          cases v with
          | none => cases hr
          | some v =>
            simp only [weightOpt] at hw
            obtain ⟨x, hx, hr⟩ := bind_ok.1 hr
            cases hr
            obtain ⟨a, rfl, ha⟩ := makeSchema_good h (by omega) hx (fun st => (hnil st).2 v rfl)
            exact ⟨addPattern_good hg p ha, fun st => by simp [(hnil st).1]⟩
      · rename_i hvar
        cases v with
        | none => cases hr
        | some v =>
          simp only [weightOpt] at hw
          obtain ⟨x, hx, hr⟩ := bind_ok.1 hr
          have hnil : strict → ns = [keyOf k] ∧ Tidy none v := by
            intro st
            have := ht st
            cases this with
            | property hd' h1 h2 h3 h4 => rw [hd] at hd'; cases hd'; exact ⟨by simp [keyOf, h1, h2], h4⟩
            | _ => simp_all
          obtain ⟨a, rfl, ha⟩ := makeSchema_good h (by omega) hx (fun st => (hnil st).2)
          obtain ⟨l, hl, hls⟩ := hg.required
          cases hr
          refine ⟨⟨?_, hg.patterns, hg.unique, hg.all, ?_⟩, fun st => by simp [(hnil st).1]⟩
          · intro p hp
            rcases List.mem_append.1 hp with hp | hp
            · exact hg.properties p hp
            · simp at hp; subst hp; exact ha.1
          · dsimp only
            split
            · exact ⟨l ++ [keyOf k], by simp [hl], by simpa using hls.append (List.Sublist.refl [keyOf k])⟩
            · exact ⟨l, hl, by simpa using hls.trans (List.sublist_append_left _ _)⟩
  · rename_i d hd
    rw [hd] at hw; simp only [weightData] at hw
    cases d with
    | none => cases hr; exact ⟨hg, fun st => by have := ht st; cases this <;> simp_all⟩
    | some d =>
      simp only [weightOpt] at hw; dsimp only at hr
      split at hr
      · exact (h d (by omega)).2 _ _ _ ns hr hg (fun st => Tidy.holder_inv (ht st) hd)
      · cases hr; exact ⟨hg, fun st => by have := ht st; cases this <;> simp_all⟩
  · rename_i k hd
    obtain ⟨r, h1, hr⟩ := bind_ok.1 hr
    exact (h r (resolve_weight h1)).2 _ _ _ ns hr hg (fun st => Tidy.ref_inv (ht st) hd h1)
  · rename_i es hd
    rw [hd] at hw; simp only [weightData] at hw
    obtain ⟨vs, h1, hr⟩ := bind_ok.1 hr
    cases hr
    obtain ⟨f, hf⟩ : ∃ f : Elem → List Bytes, strict → ns = [] ∧ (∃ o ∈ es, ∃ os, o.data = .option os ∧ o.has = true ∧ os ≠ []) ∧
        (∀ o ∈ es, ∀ os, o.data = .option os → ∀ x ∈ os, Tidy (some (f x)) x) ∧
        (∀ o ∈ es, ∀ os, o.data = .option os → (os.flatMap f).Nodup) := by
      by_cases st : strict
      · have := ht st
        cases this with
        | oneOf f hd' h1 h2 h3 => rw [hd] at hd'; cases hd'; exact ⟨f, fun _ => ⟨rfl, h1, h2, h3⟩⟩
        | _ => simp_all
      · exact ⟨fun _ => [], fun h => absurd h st⟩
    obtain ⟨g1, g2⟩ := optionSchemas_good h o es (by omega) f (fun st => (hf st).2.2) vs h1
    refine ⟨⟨hg.properties, hg.patterns, hg.unique, ?_, hg.required⟩, fun st => by simp [(hf st).1]⟩
    intro v hv
    rcases List.mem_append.1 hv with hv | hv
    · exact hg.all v hv
    · simp at hv; subst hv
      exact (good_alternatives strict (.inr (.inr rfl)) vs (fun st => g2 (hf st).2.1) g1).1
  · rename_i es hd
    rw [hd] at hw; simp only [weightData] at hw
    split at hr
    · rename_i hem
      cases hr
      refine ⟨hg, fun st => ?_⟩
      have := ht st
      cases this <;> simp_all [Elem.empty]
    · obtain ⟨f, hf⟩ : ∃ f : Elem → List Bytes, strict → ns = es.flatMap f ∧ (∀ x ∈ es, Tidy (some (f x)) x) := by
        by_cases st : strict
        · have := ht st
          cases this with
          | mixin f hd' _ h1 => rw [hd] at hd'; cases hd'; exact ⟨f, fun _ => ⟨rfl, h1⟩⟩
          | _ => simp_all [Elem.empty]
        · exact ⟨fun _ => [], fun h => absurd h st⟩
      have := mixinEntries_good h _ es (by omega) f (fun st => (hf st).2) _ _ hr hg
      exact ⟨this.1, fun st => by rw [this.2 st, (hf st).1]⟩
  · rename_i es hd
    rw [hd] at hw; simp only [weightData] at hw
    obtain ⟨m, hm, hr⟩ := bind_ok.1 hr
    have := mergeF_weight hm
    exact (h m (by omega)).2 _ _ _ ns hr hg (fun st => Tidy.extend_inv (ht st) hd hm)

theorem renderN_good (strict : Prop) (n : Nat) : Holds strict (n + 1) (renderN n) := by
  induction n with
  | zero => intro x hx; have := weight_pos x; omega
  | succ n ih =>
    intro x hx
    have ha : Holds strict (weight x) (renderN n) := fun y hy => ih y (by omega)
    exact ⟨fun s o s' hr ht => schemaStep_good ha ht hr, fun q o q' ns hr hg ht => propertyStep_good ha ht hg hr⟩

/-! ## The whole schema -/

theorem good_head (strict : Prop) (v : Value) {a : Entries} (h : Good strict a) : Every (Ok strict) (.obj ((str "$schema", v) :: a)) := by
  obtain ⟨⟨⟨hf, hp⟩, hk⟩, hn, _⟩ := h
  refine ⟨⟨⟨?_, ?_, ?_, ?_, ?_⟩, fun hs => ⟨?_, ?_, ?_, ?_⟩⟩, ?_⟩
  · simp only [List.map_cons, List.nodup_cons]; exact ⟨hn, hf.keywords⟩
  · intro x hx; simp +decide at hx; exact hf.type x hx
  · intro x hx; simp +decide at hx; exact hf.counts x hx
  · intro x hx; simp +decide at hx
    obtain ⟨rs, h1, h2⟩ := hf.required x hx
    refine ⟨rs, h1, fun r hr => ?_⟩
    obtain ⟨k, hk1, ps, hk2, hk3⟩ := h2 r hr
    exact ⟨k, hk1, ps, by simp [hk2], hk3⟩
  · intro x hx; simp +decide at hx; exact hf.patterns x hx
  · intro x hx; simp +decide at hx; exact (hp hs).names x hx
  · intro x hx; simp +decide at hx; exact (hp hs).required x hx
  · intro hx; simp +decide at hx; exact (hp hs).enum hx
  · intro k es hx hk'
    rcases List.mem_cons.1 hx with hx | hx
    · simp at hx; obtain ⟨rfl, _⟩ := hx; simp +decide at hk'
    · exact (hp hs).alternatives k es hx hk'
  · rw [EveryKeywords]
    refine ⟨?_, hk⟩
    simp +decide [EveryKeyword]

theorem reduce_good {v : Value} {a : Entries} (h : Good strict a) : reduce ((str "$schema", v) :: a) = (str "$schema", v) :: a := by
  unfold reduce
  rw [So.find, if_neg (by decide)]
  split
  · rename_i vs hv
    have hmem : (str "anyOf", So.Value.arr vs) ∈ a := by
      clear h
      induction a with
      | nil => simp [So.find] at hv
      | cons p r ih =>
        obtain ⟨k, x⟩ := p
        rw [So.find] at hv
        split at hv
        · cases hv; simp [*]
        · simp [ih hv]
    have hl := h.2.2 (List.mem_map.2 ⟨_, hmem, rfl⟩)
    obtain ⟨p, rfl⟩ := List.length_eq_one_iff.1 hl
    simp at hmem; subst hmem
    rfl
  · rfl

theorem generate_good (strict : Prop) {e : Elem} {v : Value} (ht : strict → Tidy none e) (h : generateJsonSchema e = .ok v) :
    ∃ a, v = .obj ((str "$schema", .str (str "http://json-schema.org/draft-07/schema#")) :: a) ∧ Good strict a ∧
      full.schema [] e ⟨false, false, false, false⟩ = .ok a ∧ Every (Ok strict) v := by
  unfold generateJsonSchema at h
  obtain ⟨s, h1, h⟩ := bind_ok.1 h
  cases h
  have h2 : full.schema _ e _ = .ok s := h1
  rw [full_prefix] at h2
  obtain ⟨a, h3, rfl⟩ := map_ok.1 h2
  obtain ⟨a', ha', hg⟩ := (renderN_good strict _ e (by omega)).1 _ _ _ h3 ht
  simp only [List.nil_append] at ha'
  subst ha'
  refine ⟨a, ?_, hg, h3, ?_⟩
  · exact congrArg _ (reduce_good hg)
  · show Every _ (.obj (reduce (_ :: a)))
    rw [reduce_good hg]; exact good_head strict _ hg

end Verif.JsonSchema
