import Verif.Model.JsonValue
import Verif.Proof.ElementUtils
import Verif.Spec.Body
import Mathlib.Data.List.Forall2
/-! Termination of the generation of bodies, and the recursion equations without a bound. -/
namespace Verif.JsonValue
open Verif Verif.Refract

theorem bind_ok {α β : Type} {x : R α} {f : α → R β} {b : β} : x.bind f = .ok b ↔ ∃ a, x = .ok a ∧ f a = .ok b := by
  cases x <;> simp [Except.bind]

theorem bind_fuel {α β : Type} {x : R α} {f : α → R β} (hx : x ≠ .error .fuel) (hf : ∀ a, x = .ok a → f a ≠ .error .fuel) :
    x.bind f ≠ .error .fuel := by
  cases x with
  | error e => simpa [Except.bind] using hx
  | ok a => exact hf a rfl

theorem map_fuel {α β : Type} {x : R α} {f : α → β} (hx : x ≠ .error .fuel) : x.map f ≠ .error .fuel := by
  cases x with
  | error e => simpa [Except.map] using hx
  | ok a => simp [Except.map]

theorem map_ok {α β : Type} {x : R α} {f : α → β} {b : β} : x.map f = .ok b ↔ ∃ a, x = .ok a ∧ f a = b := by
  cases x <;> simp [Except.map]

theorem bind_congr {α β : Type} {x : R α} {f g : α → R β} (h : ∀ a, x = .ok a → f a = g a) : x.bind f = x.bind g := by
  cases x with
  | error e => rfl
  | ok a => exact h a rfl

theorem inheritOrPass_fuel (o : Flags) (e : Elem) : inheritOrPass o e ≠ .error .fuel :=
  bind_fuel (inheritsFixed_fuel e) (fun _ _ => by simp)

/-- The calls on elements lighter than `w` are the same. -/
def Agree (w : Nat) (c c' : Calls) : Prop :=
  ∀ x, weight x < w → (∀ o, c.value x o = c'.value x o) ∧ (∀ obj o, c.property obj x o = c'.property obj x o) ∧
    (∀ arr o, c.item arr x o = c'.item arr x o)

theorem asArray_weight {e : Elem} {es : List Elem} (h : asArray e = some es) : weightList es < weight e := by
  unfold asArray at h
  split at h
  · rename_i es' hd; cases h
    have := weight_of_data hd
    simp only [weightData] at this; omega
  · cases h

theorem sample_congr {c c' : Calls} {e : Elem} (h : Agree (weight e) c c') (o : Flags) :
    sampleOrDefaultOrNull c e o = sampleOrDefaultOrNull c' e o := by
  unfold sampleOrDefaultOrNull
  split
  · rename_i s hs; rw [(h s (findFirstSample_weight hs)).1]
  · split
    · rename_i d hd; rw [(h d (findDefault_weight hd)).1]
    · rfl

theorem properties_congr {c c' : Calls} {w : Nat} (h : Agree w c c') (o : Flags) (es : List Elem) (hes : weightList es < w) :
    ∀ obj, properties c o obj es = properties c' o obj es := by
  induction es with
  | nil => intro obj; rfl
  | cons e es ih =>
    intro obj
    rw [weightList] at hes
    simp only [properties]
    refine bind_congr fun o' _ => ?_
    rw [(h e (by omega)).2.1]
    exact bind_congr fun obj' _ => ih (by omega) obj'

theorem items_congr {c c' : Calls} {w : Nat} (h : Agree w c c') (o : Flags) (es : List Elem) (hes : weightList es < w) :
    ∀ arr, items c o arr es = items c' o arr es := by
  induction es with
  | nil => intro arr; rfl
  | cons e es ih =>
    intro arr
    rw [weightList] at hes
    simp only [items]
    refine bind_congr fun o' _ => ?_
    rw [(h e (by omega)).2.2]
    exact bind_congr fun arr' _ => ih (by omega) arr'

theorem optionEntries_congr {c c' : Calls} {w : Nat} (h : Agree w c c') (o : Flags) (es : List Elem) (hes : weightList es < w) :
    ∀ obj, optionEntries c o obj es = optionEntries c' o obj es := by
  induction es with
  | nil => intro obj; rfl
  | cons e es ih =>
    intro obj
    rw [weightList] at hes
    simp only [optionEntries]
    rw [(h e (by omega)).2.1]
    exact bind_congr fun obj' _ => ih (by omega) obj'

theorem firstOption_congr {c c' : Calls} {w : Nat} (h : Agree w c c') (o : Flags) (es : List Elem) (hes : weightList es < w)
    (obj : List (Bytes × Value)) : firstOption c o obj es = firstOption c' o obj es := by
  induction es with
  | nil => rfl
  | cons e es ih =>
    rw [weightList] at hes
    simp only [firstOption]
    split
    · rename_i os hd
      have := weight_of_data hd
      simp only [weightData] at this
      rw [ih (by omega), optionEntries_congr h o os (by omega)]
    · rfl

theorem valuePrimitive_congr {c c' : Calls} {e : Elem} (h : Agree (weight e) c c') (o : Flags) :
    valuePrimitive c e o = valuePrimitive c' e o := by
  unfold valuePrimitive
  dsimp only
  rw [sample_congr h]

theorem valueStep_congr {c c' : Calls} {e : Elem} (h : Agree (weight e) c c') (o : Flags) : valueStep c e o = valueStep c' e o := by
  have hw := weight_eq e
  unfold valueStep
  split
  · exact valuePrimitive_congr h o
  · exact valuePrimitive_congr h o
  · exact valuePrimitive_congr h o
  · rfl
  · rfl
  · rfl
  · rename_i d hd
    rw [hd] at hw; simp only [weightData] at hw
    cases d with
    | none => rfl
    | some d => simp only [weightOpt] at hw; dsimp only; rw [(h d (by omega)).1]
  · rename_i es hd
    rw [hd] at hw; simp only [weightData] at hw
    dsimp only
    rw [sample_congr h, properties_congr h _ es (by omega)]
  · rename_i es hd
    rw [hd] at hw; simp only [weightData] at hw
    dsimp only
    rw [sample_congr h, items_congr h _ es (by omega)]
  · rename_i v hd
    rw [hd] at hw; simp only [weightData] at hw
    dsimp only
    split
    · rw [sample_congr h]
      refine bind_congr fun alt _ => ?_
      split
      · rfl
      · split
        · rfl
        · rename_i x hx
          have h1 := weightInfos_find hx
          split
          · rfl
          · rename_i es hes
            have h2 := asArray_weight hes
            split
            · rfl
            · rename_i y r hy
              have hy' : y ∈ es := by
                split at hy
                · rw [hy]; simp
                · cases hy
              have h3 := weightList_mem hy'
              rw [(h y (by omega)).1]
    · cases v with
      | none => rfl
      | some v => simp only [weightOpt] at hw; dsimp only; rw [(h v (by omega)).1]
  · rfl
  · rename_i es hd
    rw [hd] at hw; simp only [weightData] at hw
    refine bind_congr fun m hm => ?_
    have := mergeF_weight hm
    rw [(h m (by omega)).1]
  · refine bind_congr fun r hr => ?_
    rw [(h r (resolve_weight hr)).1]

theorem propertyStep_congr {c c' : Calls} {e : Elem} (h : Agree (weight e) c c') (obj : List (Bytes × Value)) (o : Flags) :
    propertyStep c obj e o = propertyStep c' obj e o := by
  have hw := weight_eq e
  unfold propertyStep
  split <;> try rfl
  · rename_i d hd
    rw [hd] at hw; simp only [weightData] at hw
    cases d with
    | none => rfl
    | some d => simp only [weightOpt] at hw; dsimp only; rw [(h d (by omega)).2.1]
  · rename_i k v hd
    rw [hd] at hw; simp only [weightData] at hw
    split
    · rename_i k v
      simp only [weightOpt] at hw
      rw [(h v (by omega)).1]
    · rfl
    · rfl
  · refine bind_congr fun r hr => ?_
    rw [(h r (resolve_weight hr)).2.1]
  · rename_i es hd
    rw [hd] at hw; simp only [weightData] at hw
    exact firstOption_congr h o es (by omega) obj
  · rw [valueStep_congr h]
  · rename_i es hd
    rw [hd] at hw; simp only [weightData] at hw
    refine bind_congr fun m hm => ?_
    have := mergeF_weight hm
    rw [(h m (by omega)).2.1]

theorem itemPrimitive_congr {c c' : Calls} {e : Elem} (h : Agree (weight e) c c') (arr : List Value) (o : Flags) :
    itemPrimitive c arr e o = itemPrimitive c' arr e o := by
  unfold itemPrimitive
  simp only [valueStep_congr h]

theorem itemStep_congr {c c' : Calls} {e : Elem} (h : Agree (weight e) c c') (arr : List Value) (o : Flags) :
    itemStep c arr e o = itemStep c' arr e o := by
  unfold itemStep
  simp only [valueStep_congr h, itemPrimitive_congr h]
  split <;> try rfl
  refine bind_congr fun r hr => ?_
  rw [(h r (resolve_weight hr)).1]

/-- Two bounds that are both large enough give the same calls. -/
theorem renderN_agree (n : Nat) : ∀ m, n ≤ m → Agree (n + 1) (renderN n) (renderN m) := by
  induction n with
  | zero => intro m _ x hx; have := weight_pos x; omega
  | succ n ih =>
    intro m hm x hx
    cases m with
    | zero => omega
    | succ m =>
      have ha : Agree (weight x) (renderN n) (renderN m) := fun y hy => ih m (by omega) y (by omega)
      refine ⟨fun o => valueStep_congr ha o, fun obj o => propertyStep_congr ha obj o, fun arr o => itemStep_congr ha arr o⟩

/-- The calls with a bound that is large enough for the element. -/
def full : Calls :=
  ⟨fun e => (renderN (weight e)).value e, fun obj e => (renderN (weight e)).property obj e, fun arr e => (renderN (weight e)).item arr e⟩

theorem agree_full (n : Nat) : Agree (n + 1) full (renderN n) := by
  intro x hx
  have := renderN_agree (weight x) n (by omega) x (by omega)
  exact this

theorem full_value (e : Elem) (o : Flags) : full.value e o = valueStep full e o := by
  obtain ⟨n, hn⟩ := Nat.exists_eq_succ_of_ne_zero (Nat.pos_iff_ne_zero.1 (weight_pos e))
  have h : Agree (weight e) full (renderN n) := by rw [hn]; exact agree_full n
  show (renderN (weight e)).value e o = _
  rw [valueStep_congr h, hn]; rfl

theorem full_property (obj : List (Bytes × Value)) (e : Elem) (o : Flags) : full.property obj e o = propertyStep full obj e o := by
  obtain ⟨n, hn⟩ := Nat.exists_eq_succ_of_ne_zero (Nat.pos_iff_ne_zero.1 (weight_pos e))
  have h : Agree (weight e) full (renderN n) := by rw [hn]; exact agree_full n
  show (renderN (weight e)).property obj e o = _
  rw [propertyStep_congr h, hn]; rfl

theorem full_item (arr : List Value) (e : Elem) (o : Flags) : full.item arr e o = itemStep full arr e o := by
  obtain ⟨n, hn⟩ := Nat.exists_eq_succ_of_ne_zero (Nat.pos_iff_ne_zero.1 (weight_pos e))
  have h : Agree (weight e) full (renderN n) := by rw [hn]; exact agree_full n
  show (renderN (weight e)).item arr e o = _
  rw [itemStep_congr h, hn]; rfl

theorem generate_full (e : Elem) : generateJsonValue e = full.value e ⟨false, false⟩ := rfl

/-! ## The bound is never exceeded -/

/-- No call on an element lighter than `w` exceeds the bound. -/
def NoFuel (w : Nat) (c : Calls) : Prop :=
  ∀ x, weight x < w → (∀ o, c.value x o ≠ .error .fuel) ∧ (∀ obj o, c.property obj x o ≠ .error .fuel) ∧
    (∀ arr o, c.item arr x o ≠ .error .fuel)

theorem sample_fuel {c : Calls} {e : Elem} (h : NoFuel (weight e) c) (o : Flags) : sampleOrDefaultOrNull c e o ≠ .error .fuel := by
  unfold sampleOrDefaultOrNull
  split
  · rename_i s hs; exact map_fuel ((h s (findFirstSample_weight hs)).1 o)
  · split
    · rename_i d hd; exact map_fuel ((h d (findDefault_weight hd)).1 o)
    · simp

theorem properties_fuel {c : Calls} {w : Nat} (h : NoFuel w c) (o : Flags) (es : List Elem) (hes : weightList es < w) :
    ∀ obj, properties c o obj es ≠ .error .fuel := by
  induction es with
  | nil => intro obj; simp [properties]
  | cons e es ih =>
    intro obj
    rw [weightList] at hes
    simp only [properties]
    exact bind_fuel (inheritOrPass_fuel _ _) fun o' _ => bind_fuel ((h e (by omega)).2.1 _ _) fun obj' _ => ih (by omega) obj'

theorem items_fuel {c : Calls} {w : Nat} (h : NoFuel w c) (o : Flags) (es : List Elem) (hes : weightList es < w) :
    ∀ arr, items c o arr es ≠ .error .fuel := by
  induction es with
  | nil => intro arr; simp [items]
  | cons e es ih =>
    intro arr
    rw [weightList] at hes
    simp only [items]
    exact bind_fuel (inheritOrPass_fuel _ _) fun o' _ => bind_fuel ((h e (by omega)).2.2 _ _) fun arr' _ => ih (by omega) arr'

theorem optionEntries_fuel {c : Calls} {w : Nat} (h : NoFuel w c) (o : Flags) (es : List Elem) (hes : weightList es < w) :
    ∀ obj, optionEntries c o obj es ≠ .error .fuel := by
  induction es with
  | nil => intro obj; simp [optionEntries]
  | cons e es ih =>
    intro obj
    rw [weightList] at hes
    simp only [optionEntries]
    exact bind_fuel ((h e (by omega)).2.1 _ _) fun obj' _ => ih (by omega) obj'

theorem firstOption_fuel {c : Calls} {w : Nat} (h : NoFuel w c) (o : Flags) (es : List Elem) (hes : weightList es < w)
    (obj : List (Bytes × Value)) : firstOption c o obj es ≠ .error .fuel := by
  induction es with
  | nil => simp [firstOption]
  | cons e es ih =>
    rw [weightList] at hes
    simp only [firstOption]
    split
    · rename_i os hd
      have := weight_of_data hd
      simp only [weightData] at this
      split
      · exact ih (by omega)
      · exact optionEntries_fuel h o os (by omega) obj
    · simp

theorem valuePrimitive_fuel {c : Calls} {e : Elem} (h : NoFuel (weight e) c) (o : Flags) : valuePrimitive c e o ≠ .error .fuel := by
  unfold valuePrimitive
  dsimp only
  split
  · exact bind_fuel (sample_fuel h _) fun alt _ => by split <;> simp
  · simp

theorem valueStep_fuel {c : Calls} {e : Elem} (h : NoFuel (weight e) c) (o : Flags) : valueStep c e o ≠ .error .fuel := by
  have hw := weight_eq e
  unfold valueStep
  split
  · exact valuePrimitive_fuel h o
  · exact valuePrimitive_fuel h o
  · exact valuePrimitive_fuel h o
  · simp
  · simp
  · simp
  · rename_i d hd
    rw [hd] at hw; simp only [weightData] at hw
    cases d with
    | none => simp
    | some d =>
      simp only [weightOpt] at hw; dsimp only
      split
      · exact (h d (by omega)).1 o
      · simp
  · rename_i es hd
    rw [hd] at hw; simp only [weightData] at hw
    dsimp only
    split
    · exact bind_fuel (sample_fuel h _) fun _ _ => by simp
    · exact bind_fuel (properties_fuel h _ es (by omega) _) fun _ _ => by simp
  · rename_i es hd
    rw [hd] at hw; simp only [weightData] at hw
    dsimp only
    split
    · exact bind_fuel (sample_fuel h _) fun _ _ => by simp
    · exact bind_fuel (items_fuel h _ es (by omega) _) fun _ _ => by simp
  · rename_i v hd
    rw [hd] at hw; simp only [weightData] at hw
    dsimp only
    split
    · refine bind_fuel (sample_fuel h _) fun alt _ => ?_
      split
      · simp
      · split
        · simp
        · rename_i x hx
          have h1 := weightInfos_find hx
          split
          · simp
          · rename_i es hes
            have h2 := asArray_weight hes
            split
            · simp
            · rename_i y r hy
              have hy' : y ∈ es := by
                split at hy
                · rw [hy]; simp
                · cases hy
              have h3 := weightList_mem hy'
              exact (h y (by omega)).1 _
    · cases v with
      | none => simp
      | some v => simp only [weightOpt] at hw; dsimp only; exact (h v (by omega)).1 _
  · simp
  · rename_i es hd
    rw [hd] at hw; simp only [weightData] at hw
    refine bind_fuel (mergeF_fuel es) fun m hm => ?_
    have := mergeF_weight hm
    exact (h m (by omega)).1 _
  · refine bind_fuel (resolve_fuel e) fun r hr => ?_
    exact (h r (resolve_weight hr)).1 _

theorem propertyStep_fuel {c : Calls} {e : Elem} (h : NoFuel (weight e) c) (obj : List (Bytes × Value)) (o : Flags) :
    propertyStep c obj e o ≠ .error .fuel := by
  have hw := weight_eq e
  unfold propertyStep
  split <;> try simp
  · rename_i d hd
    rw [hd] at hw; simp only [weightData] at hw
    cases d with
    | none => simp
    | some d =>
      simp only [weightOpt] at hw; dsimp only
      split
      · exact (h d (by omega)).2.1 _ _
      · simp
  · rename_i k v hd
    rw [hd] at hw; simp only [weightData] at hw
    split
    · rename_i k v
      simp only [weightOpt] at hw
      split
      · simp
      · refine bind_fuel (renderKey_fuel k) fun key _ => ?_
        split
        · simp
        · exact bind_fuel ((h v (by omega)).1 _) fun _ _ => by simp
    · simp
    · split
      · simp
      · exact bind_fuel (renderKey_fuel _) fun key _ => by split <;> simp
  · refine bind_fuel (resolve_fuel e) fun r hr => ?_
    exact (h r (resolve_weight hr)).2.1 _ _
  · rename_i es hd
    rw [hd] at hw; simp only [weightData] at hw
    exact firstOption_fuel h o es (by omega) obj
  · exact bind_fuel (valueStep_fuel h o) fun _ _ => by split <;> simp
  · rename_i es hd
    rw [hd] at hw; simp only [weightData] at hw
    refine bind_fuel (mergeF_fuel es) fun m hm => ?_
    have := mergeF_weight hm
    exact (h m (by omega)).2.1 _ _

theorem itemStep_fuel {c : Calls} {e : Elem} (h : NoFuel (weight e) c) (arr : List Value) (o : Flags) :
    itemStep c arr e o ≠ .error .fuel := by
  have push : ∀ o : Flags, ((inheritOrPass o e).bind fun o' => (valueStep c e o').bind fun v => (.ok (arr ++ [v]) : R (List Value)))
      ≠ .error .fuel := fun o =>
    bind_fuel (inheritOrPass_fuel o e) fun o' _ => bind_fuel (valueStep_fuel h o') fun v _ => by simp
  have prim : itemPrimitive c arr e o ≠ .error .fuel := by
    unfold itemPrimitive
    dsimp only
    split
    · exact push _
    · simp
  unfold itemStep
  dsimp only
  split <;> first | exact push o | exact prim | simp | skip
  refine bind_fuel (resolve_fuel e) fun r hr => ?_
  split
  · exact bind_fuel ((h r (resolve_weight hr)).1 _) fun _ _ => by split <;> simp
  · simp

theorem renderN_fuel (n : Nat) : NoFuel (n + 1) (renderN n) := by
  induction n with
  | zero => intro x hx; have := weight_pos x; omega
  | succ n ih =>
    intro x hx
    have ha : NoFuel (weight x) (renderN n) := fun y hy => ih y (by omega)
    exact ⟨fun o => valueStep_fuel ha o, fun obj o => propertyStep_fuel ha obj o, fun arr o => itemStep_fuel ha arr o⟩

/-! ## Object keys -/

theorem emplaceUnique_keys (c : List (Bytes × Value)) (k : Bytes) (v : Value) (k' : Bytes) :
    k' ∈ (So.emplaceUnique c k v).map (·.1) ↔ k' ∈ c.map (·.1) ∨ k' = k := by
  induction c with
  | nil => simp [So.emplaceUnique]
  | cons p r ih =>
    obtain ⟨a, w⟩ := p
    simp only [So.emplaceUnique]
    split
    · rename_i h; subst h; simp only [List.map_cons, List.mem_cons]; constructor
      · rintro (h | h) <;> simp [h]
      · rintro ((h | h) | h) <;> simp [h]
    · simp only [List.map_cons, List.mem_cons, ih]; constructor
      · rintro (h | h | h) <;> simp [h]
      · rintro ((h | h) | h) <;> simp [h]

theorem mixin_keys (ms : List (Bytes × Value)) : ∀ (obj : List (Bytes × Value)) (k : Bytes),
    k ∈ (mixin obj ms).map (·.1) ↔ k ∈ obj.map (·.1) ∨ k ∈ ms.map (·.1) := by
  induction ms with
  | nil => intro obj k; simp [mixin]
  | cons p r ih =>
    intro obj k
    have h : mixin obj (p :: r) = mixin (So.emplaceUnique obj p.1 p.2) r := rfl
    rw [h, ih, emplaceUnique_keys]
    simp only [List.map_cons, List.mem_cons, or_assoc]

/-! ## Invariants of generated values -/

/-- A property of values that the generator keeps. -/
structure Inv (P : Value → Prop) : Prop where
  null : P .null
  prim : ∀ d, P (instantiate d)
  primEmpty : ∀ d, P (instantiateEmpty d)
  nil : P (.obj [])
  emplace : ∀ {o k v}, P (.obj o) → k ≠ [] → P v → P (.obj (So.emplaceUnique o k v))
  members : ∀ {o}, P (.obj o) → ∀ p ∈ o, p.1 ≠ [] ∧ P p.2
  anil : P (.arr [])
  append : ∀ {a b}, P (.arr a) → P (.arr b) → P (.arr (a ++ b))
  single : ∀ {v}, P v → P (.arr [v])

variable {P : Value → Prop}

theorem Inv.mixin (hP : Inv P) (ms : List (Bytes × Value)) (h : ∀ p ∈ ms, p.1 ≠ [] ∧ P p.2) :
    ∀ obj, P (.obj obj) → P (.obj (JsonValue.mixin obj ms)) := by
  induction ms with
  | nil => intro obj ho; exact ho
  | cons p r ih =>
    intro obj ho
    have h1 := h p (by simp)
    exact ih (fun q hq => h q (by simp [hq])) _ (hP.emplace ho h1.1 h1.2)

/-- All calls on elements lighter than `w` keep the property. -/
def Keeps (P : Value → Prop) (w : Nat) (c : Calls) : Prop :=
  ∀ x, weight x < w → (∀ o v, c.value x o = .ok v → P v) ∧
    (∀ obj o r, P (.obj obj) → c.property obj x o = .ok r → P (.obj r)) ∧
    (∀ arr o r, P (.arr arr) → c.item arr x o = .ok r → P (.arr r))

theorem Inv.sample (hP : Inv P) {c : Calls} {e : Elem} (h : Keeps P (weight e) c) {o : Flags} {v : Value}
    (hv : sampleOrDefaultOrNull c e o = .ok (some v)) : P v := by
  unfold sampleOrDefaultOrNull at hv
  split at hv
  · rename_i s hs
    obtain ⟨a, ha, h2⟩ := map_ok.1 hv; cases h2
    exact (h s (findFirstSample_weight hs)).1 _ _ ha
  · split at hv
    · rename_i d hd
      obtain ⟨a, ha, h2⟩ := map_ok.1 hv; cases h2
      exact (h d (findDefault_weight hd)).1 _ _ ha
    · split at hv <;> simp at hv
      subst hv; exact hP.null

theorem Inv.properties {c : Calls} {w : Nat} (h : Keeps P w c) (o : Flags) (es : List Elem) (hes : weightList es < w) :
    ∀ obj r, P (.obj obj) → properties c o obj es = .ok r → P (.obj r) := by
  induction es with
  | nil => intro obj r ho hr; simp [JsonValue.properties] at hr; subst hr; exact ho
  | cons e es ih =>
    intro obj r ho hr
    rw [weightList] at hes
    simp only [JsonValue.properties] at hr
    obtain ⟨o', _, hr⟩ := bind_ok.1 hr
    obtain ⟨obj', ho', hr⟩ := bind_ok.1 hr
    exact ih (by omega) _ _ ((h e (by omega)).2.1 _ _ _ ho ho') hr

theorem Inv.items {c : Calls} {w : Nat} (h : Keeps P w c) (o : Flags) (es : List Elem) (hes : weightList es < w) :
    ∀ arr r, P (.arr arr) → items c o arr es = .ok r → P (.arr r) := by
  induction es with
  | nil => intro arr r ho hr; simp [JsonValue.items] at hr; subst hr; exact ho
  | cons e es ih =>
    intro arr r ho hr
    rw [weightList] at hes
    simp only [JsonValue.items] at hr
    obtain ⟨o', _, hr⟩ := bind_ok.1 hr
    obtain ⟨arr', ho', hr⟩ := bind_ok.1 hr
    exact ih (by omega) _ _ ((h e (by omega)).2.2 _ _ _ ho ho') hr

theorem Inv.optionEntries {c : Calls} {w : Nat} (h : Keeps P w c) (o : Flags) (es : List Elem) (hes : weightList es < w) :
    ∀ obj r, P (.obj obj) → optionEntries c o obj es = .ok r → P (.obj r) := by
  induction es with
  | nil => intro obj r ho hr; simp [JsonValue.optionEntries] at hr; subst hr; exact ho
  | cons e es ih =>
    intro obj r ho hr
    rw [weightList] at hes
    simp only [JsonValue.optionEntries] at hr
    obtain ⟨obj', ho', hr⟩ := bind_ok.1 hr
    exact ih (by omega) _ _ ((h e (by omega)).2.1 _ _ _ ho ho') hr

theorem Inv.firstOption {c : Calls} {w : Nat} (h : Keeps P w c) (o : Flags) (es : List Elem) (hes : weightList es < w)
    (obj r : List (Bytes × Value)) (ho : P (.obj obj)) (hr : firstOption c o obj es = .ok r) : P (.obj r) := by
  induction es with
  | nil => simp [JsonValue.firstOption] at hr; subst hr; exact ho
  | cons e es ih =>
    rw [weightList] at hes
    simp only [JsonValue.firstOption] at hr
    split at hr
    · rename_i os hd
      have := weight_of_data hd
      simp only [weightData] at this
      split at hr
      · exact ih (by omega) hr
      · exact Inv.optionEntries h o os (by omega) obj r ho hr
    · simp at hr

theorem Inv.valueStep (hP : Inv P) {c : Calls} {e : Elem} (h : Keeps P (weight e) c) {o : Flags} {v : Value}
    (hv : valueStep c e o = .ok v) : P v := by
  have hw := weight_eq e
  have prim : valuePrimitive c e o = .ok v → P v := by
    intro hv
    unfold valuePrimitive at hv
    dsimp only at hv
    split at hv
    · obtain ⟨alt, ha, hv⟩ := bind_ok.1 hv
      split at hv
      · cases hv; exact hP.sample h ha
      · cases hv; exact hP.primEmpty _
    · cases hv; exact hP.prim _
  unfold JsonValue.valueStep at hv
  split at hv
  · exact prim hv
  · exact prim hv
  · exact prim hv
  · cases hv; exact hP.null
  · cases hv; exact hP.null
  · cases hv; exact hP.null
  · rename_i d hd
    rw [hd] at hw; simp only [weightData] at hw
    cases d with
    | none => cases hv; exact hP.null
    | some d =>
      simp only [weightOpt] at hw; dsimp only at hv
      split at hv
      · exact (h d (by omega)).1 _ _ hv
      · cases hv; exact hP.null
  · rename_i es hd
    rw [hd] at hw; simp only [weightData] at hw
    dsimp only at hv
    split at hv
    · obtain ⟨alt, ha, hv⟩ := bind_ok.1 hv
      cases hv
      cases alt with
      | none => exact hP.nil
      | some x => exact hP.sample h ha
    · obtain ⟨ms, hm, hv⟩ := bind_ok.1 hv
      cases hv
      exact Inv.properties h _ es (by omega) _ _ hP.nil hm
  · rename_i es hd
    rw [hd] at hw; simp only [weightData] at hw
    dsimp only at hv
    split at hv
    · obtain ⟨alt, ha, hv⟩ := bind_ok.1 hv
      cases hv
      cases alt with
      | none => exact hP.anil
      | some x => exact hP.sample h ha
    · obtain ⟨ms, hm, hv⟩ := bind_ok.1 hv
      cases hv
      exact Inv.items h _ es (by omega) _ _ hP.anil hm
  · rename_i v' hd
    rw [hd] at hw; simp only [weightData] at hw
    dsimp only at hv
    split at hv
    · obtain ⟨alt, ha, hv⟩ := bind_ok.1 hv
      split at hv
      · cases hv; exact hP.sample h ha
      · split at hv
        · cases hv; exact hP.null
        · rename_i x hx
          have h1 := weightInfos_find hx
          split at hv
          · cases hv
          · rename_i es hes
            have h2 := asArray_weight hes
            split at hv
            · cases hv; exact hP.null
            · rename_i y r hy
              have hy' : y ∈ es := by
                split at hy
                · rw [hy]; simp
                · cases hy
              have h3 := weightList_mem hy'
              exact (h y (by omega)).1 _ _ hv
    · cases v' with
      | none => cases hv
      | some v => simp only [weightOpt] at hw; dsimp only at hv; exact (h v (by omega)).1 _ _ hv
  · cases hv; exact hP.null
  · rename_i es hd
    rw [hd] at hw; simp only [weightData] at hw
    obtain ⟨m, hm, hv⟩ := bind_ok.1 hv
    have := mergeF_weight hm
    exact (h m (by omega)).1 _ _ hv
  · obtain ⟨r, hr, hv⟩ := bind_ok.1 hv
    exact (h r (resolve_weight hr)).1 _ _ hv

theorem Inv.propertyStep (hP : Inv P) {c : Calls} {e : Elem} (h : Keeps P (weight e) c) {obj r : List (Bytes × Value)} {o : Flags}
    (ho : P (.obj obj)) (hr : propertyStep c obj e o = .ok r) : P (.obj r) := by
  have hw := weight_eq e
  unfold JsonValue.propertyStep at hr
  split at hr <;> try (cases hr; exact ho)
  · rename_i d hd
    rw [hd] at hw; simp only [weightData] at hw
    cases d with
    | none => cases hr; exact ho
    | some d =>
      simp only [weightOpt] at hw; dsimp only at hr
      split at hr
      · exact (h d (by omega)).2.1 _ _ _ ho hr
      · cases hr; exact ho
  · rename_i k v hd
    rw [hd] at hw; simp only [weightData] at hw
    split at hr
    · rename_i k v
      simp only [weightOpt] at hw
      split at hr
      · cases hr; exact ho
      · obtain ⟨key, _, hr⟩ := bind_ok.1 hr
        split at hr
        · cases hr; exact ho
        · rename_i hk
          obtain ⟨x, hx, hr⟩ := bind_ok.1 hr
          cases hr
          exact hP.emplace ho (by simpa using hk) ((h v (by omega)).1 _ _ hx)
    · cases hr
    · split at hr
      · cases hr
      · obtain ⟨key, _, hr⟩ := bind_ok.1 hr
        split at hr
        · cases hr; exact ho
        · cases hr
  · obtain ⟨q, hq, hr⟩ := bind_ok.1 hr
    exact (h q (resolve_weight hq)).2.1 _ _ _ ho hr
  · rename_i es hd
    rw [hd] at hw; simp only [weightData] at hw
    exact Inv.firstOption h o es (by omega) _ _ ho hr
  · obtain ⟨x, hx, hr⟩ := bind_ok.1 hr
    have hx' := hP.valueStep h hx
    split at hr
    · rename_i ms
      cases hr
      exact hP.mixin ms (hP.members hx') _ ho
    · cases hr; exact ho
  · rename_i es hd
    rw [hd] at hw; simp only [weightData] at hw
    obtain ⟨m, hm, hr⟩ := bind_ok.1 hr
    have := mergeF_weight hm
    exact (h m (by omega)).2.1 _ _ _ ho hr

theorem Inv.itemStep (hP : Inv P) {c : Calls} {e : Elem} (h : Keeps P (weight e) c) {arr r : List Value} {o : Flags}
    (ho : P (.arr arr)) (hr : itemStep c arr e o = .ok r) : P (.arr r) := by
  have push : ∀ o : Flags, ((inheritOrPass o e).bind fun o' => (JsonValue.valueStep c e o').bind fun v => (.ok (arr ++ [v]) : R (List Value)))
      = .ok r → P (.arr r) := by
    intro o hr
    obtain ⟨o', _, hr⟩ := bind_ok.1 hr
    obtain ⟨v, hv, hr⟩ := bind_ok.1 hr
    cases hr
    exact hP.append ho (hP.single (hP.valueStep h hv))
  have prim : itemPrimitive c arr e o = .ok r → P (.arr r) := by
    intro hr
    unfold itemPrimitive at hr
    dsimp only at hr
    split at hr
    · exact push _ hr
    · cases hr; exact ho
  unfold JsonValue.itemStep at hr
  dsimp only at hr
  split at hr <;> first | exact push o hr | exact prim hr | (cases hr; exact ho) | skip
  obtain ⟨q, hq, hr⟩ := bind_ok.1 hr
  split at hr
  · obtain ⟨x, hx, hr⟩ := bind_ok.1 hr
    have hx' := (h q (resolve_weight hq)).1 _ _ hx
    split at hr
    · cases hr; exact hP.append ho hx'
    · cases hr; exact ho
  · cases hr; exact ho

theorem Inv.renderN (hP : Inv P) (n : Nat) : Keeps P (n + 1) (renderN n) := by
  induction n with
  | zero => intro x hx; have := weight_pos x; omega
  | succ n ih =>
    intro x hx
    have ha : Keeps P (weight x) (JsonValue.renderN n) := fun y hy => ih y (by omega)
    exact ⟨fun o v hv => hP.valueStep ha hv, fun obj o r ho hr => hP.propertyStep ha ho hr, fun arr o r ho hr => hP.itemStep ha ho hr⟩

/-- A property that the generator keeps holds of every generated body. -/
theorem Inv.generate (hP : Inv P) {e : Elem} {v : Value} (h : generateJsonValue e = .ok v) : P v :=
  (hP.renderN (weight e) e (by omega)).1 _ _ h

end Verif.JsonValue

namespace Verif.JsonValue
open Verif Verif.Refract Verif.Spec

theorem uniqueKeysM_iff (ms : List (Bytes × Value)) : UniqueKeysM ms ↔ ∀ p ∈ ms, UniqueKeys p.2 := by
  induction ms with
  | nil => simp [UniqueKeysM]
  | cons p r ih => obtain ⟨k, v⟩ := p; simp [UniqueKeysM, UniqueKeysP, ih]

theorem uniqueKeysE_iff (vs : List Value) : UniqueKeysE vs ↔ ∀ v ∈ vs, UniqueKeys v := by
  induction vs with
  | nil => simp [UniqueKeysE]
  | cons v r ih => simp [UniqueKeysE, ih]

theorem namedKeysM_iff (ms : List (Bytes × Value)) : NamedKeysM ms ↔ ∀ p ∈ ms, p.1 ≠ [] ∧ NamedKeys p.2 := by
  induction ms with
  | nil => simp [NamedKeysM]
  | cons p r ih => obtain ⟨k, v⟩ := p; simp [NamedKeysM, NamedKeysP, ih]

theorem namedKeysE_iff (vs : List Value) : NamedKeysE vs ↔ ∀ v ∈ vs, NamedKeys v := by
  induction vs with
  | nil => simp [NamedKeysE]
  | cons v r ih => simp [NamedKeysE, ih]

theorem emplaceUnique_mem {c : List (Bytes × Value)} {k : Bytes} {v : Value} {p : Bytes × Value}
    (h : p ∈ So.emplaceUnique c k v) : p ∈ c ∨ p = (k, v) := by
  induction c with
  | nil => simp [So.emplaceUnique] at h; exact .inr h
  | cons q r ih =>
    obtain ⟨a, w⟩ := q
    simp only [So.emplaceUnique] at h
    split at h
    · rename_i hk; subst hk
      rcases List.mem_cons.1 h with h | h
      · exact .inr h
      · exact .inl (by simp [h])
    · rcases List.mem_cons.1 h with h | h
      · exact .inl (by simp [h])
      · rcases ih h with h | h
        · exact .inl (by simp [h])
        · exact .inr h

theorem emplaceUnique_nodup {c : List (Bytes × Value)} (k : Bytes) (v : Value) (h : (c.map (·.1)).Nodup) :
    ((So.emplaceUnique c k v).map (·.1)).Nodup := by
  induction c with
  | nil => simp [So.emplaceUnique]
  | cons q r ih =>
    obtain ⟨a, w⟩ := q
    simp only [List.map_cons, List.nodup_cons] at h
    simp only [So.emplaceUnique]
    split
    · simp only [List.map_cons, List.nodup_cons]; exact h
    · rename_i hk
      simp only [List.map_cons, List.nodup_cons, emplaceUnique_keys]
      refine ⟨?_, ih h.2⟩
      rintro (h1 | h1)
      · exact h.1 h1
      · exact hk h1

/-- Unique, non-empty keys everywhere. -/
def Good (v : Value) : Prop := UniqueKeys v ∧ NamedKeys v

theorem good_obj {ms : List (Bytes × Value)} : Good (.obj ms) ↔ (ms.map (·.1)).Nodup ∧ ∀ p ∈ ms, p.1 ≠ [] ∧ Good p.2 := by
  unfold Good
  rw [UniqueKeys, NamedKeys, uniqueKeysM_iff, namedKeysM_iff]
  constructor
  · rintro ⟨⟨h1, h2⟩, h3⟩
    exact ⟨h1, fun p hp => ⟨(h3 p hp).1, h2 p hp, (h3 p hp).2⟩⟩
  · rintro ⟨h1, h2⟩
    exact ⟨⟨h1, fun p hp => (h2 p hp).2.1⟩, fun p hp => ⟨(h2 p hp).1, (h2 p hp).2.2⟩⟩

theorem good_arr {vs : List Value} : Good (.arr vs) ↔ ∀ v ∈ vs, Good v := by
  unfold Good
  rw [UniqueKeys, NamedKeys, uniqueKeysE_iff, namedKeysE_iff]
  constructor
  · rintro ⟨h1, h2⟩ v hv; exact ⟨h1 v hv, h2 v hv⟩
  · intro h; exact ⟨fun v hv => (h v hv).1, fun v hv => (h v hv).2⟩

theorem inv_good : Inv Good where
  null := ⟨by simp [UniqueKeys], by simp [NamedKeys]⟩
  prim := by
    intro d
    cases d <;> simp [instantiate, Good, UniqueKeys, NamedKeys]
    split <;> simp [UniqueKeys, NamedKeys]
  primEmpty := by intro d; cases d <;> simp [instantiateEmpty, Good, UniqueKeys, NamedKeys]
  nil := good_obj.2 (by simp)
  emplace := by
    intro o k v ho hk hv
    rw [good_obj] at ho ⊢
    refine ⟨emplaceUnique_nodup k v ho.1, fun p hp => ?_⟩
    rcases emplaceUnique_mem hp with h | h
    · exact ho.2 p h
    · subst h; exact ⟨hk, hv⟩
  members := by
    intro o ho p hp
    exact (good_obj.1 ho).2 p hp
  anil := good_arr.2 (by simp)
  append := by
    intro a b ha hb
    rw [good_arr] at ha hb ⊢
    intro v hv
    rcases List.mem_append.1 hv with h | h
    · exact ha v h
    · exact hb v h
  single := by intro v hv; rw [good_arr]; simpa using hv

/-! ## Primitives -/

theorem shows_full {e : Elem} {nul : Bool} {v : Value} (h : Shows e nul v) : ∀ f, full.value e ⟨f, nul⟩ = .ok v := by
  have lit : ∀ {e : Elem} {w z : Value}, Literal e.data w z → ∀ o, full.value e o = valuePrimitive full e o := by
    intro e w z h o
    rw [full_value]
    unfold valueStep
    generalize hd : e.data = d at h ⊢
    cases h <;> rfl
  have li : ∀ {d : Data} {w z : Value}, Literal d w z → instantiate d = w ∧ instantiateEmpty d = z := by
    intro d w z h; cases h <;> exact ⟨rfl, rfl⟩
  induction h with
  | value hl hh =>
    intro f
    rw [lit hl, valuePrimitive]
    simp [Elem.empty, hh, (li hl).1]
  | sample hl hh hs _ ih =>
    intro f
    rw [lit hl, valuePrimitive]
    simp only [Elem.empty, hh, Bool.not_false, ↓reduceIte, sampleOrDefaultOrNull, hs]
    simp only [update, ih, Except.map, Except.bind]
  | default hl hh hs hd _ ih =>
    intro f
    rw [lit hl, valuePrimitive]
    simp only [Elem.empty, hh, Bool.not_false, ↓reduceIte, sampleOrDefaultOrNull, hs, hd]
    simp only [update, ih, Except.map, Except.bind]
  | null hl hh hs hd hn =>
    intro f
    rw [lit hl, valuePrimitive]
    simp only [Elem.empty, hh, Bool.not_false, ↓reduceIte, sampleOrDefaultOrNull, hs, hd, update, hn, Except.bind]
  | type hl hh hs hd hn =>
    intro f
    rw [lit hl, valuePrimitive]
    simp only [Elem.empty, hh, Bool.not_false, ↓reduceIte, sampleOrDefaultOrNull, hs, hd, update, hn, Except.bind, (li hl).2,
      Bool.false_eq_true]

/-! ## Objects -/

/-- Rendering a property never drops a key that is already there. -/
def KeepsKeys (w : Nat) (c : Calls) : Prop :=
  ∀ x, weight x < w → ∀ obj o r, c.property obj x o = .ok r → ∀ k ∈ obj.map (·.1), k ∈ r.map (·.1)

theorem optionEntries_keys {c : Calls} {w : Nat} (h : KeepsKeys w c) (o : Flags) (es : List Elem) (hes : weightList es < w) :
    ∀ obj r, optionEntries c o obj es = .ok r → ∀ k ∈ obj.map (·.1), k ∈ r.map (·.1) := by
  induction es with
  | nil => intro obj r hr k hk; simp [optionEntries] at hr; subst hr; exact hk
  | cons e es ih =>
    intro obj r hr k hk
    rw [weightList] at hes
    simp only [optionEntries] at hr
    obtain ⟨obj', ho', hr⟩ := bind_ok.1 hr
    exact ih (by omega) _ _ hr k (h e (by omega) _ _ _ ho' k hk)

theorem firstOption_keys {c : Calls} {w : Nat} (h : KeepsKeys w c) (o : Flags) (es : List Elem) (hes : weightList es < w)
    (obj r : List (Bytes × Value)) (hr : firstOption c o obj es = .ok r) : ∀ k ∈ obj.map (·.1), k ∈ r.map (·.1) := by
  induction es with
  | nil => intro k hk; simp [firstOption] at hr; subst hr; exact hk
  | cons e es ih =>
    rw [weightList] at hes
    simp only [firstOption] at hr
    split at hr
    · rename_i os hd
      have := weight_of_data hd
      simp only [weightData] at this
      split at hr
      · exact ih (by omega) hr
      · exact optionEntries_keys h o os (by omega) obj r hr
    · simp at hr

theorem propertyStep_keys {c : Calls} {e : Elem} (h : KeepsKeys (weight e) c) {obj r : List (Bytes × Value)} {o : Flags}
    (hr : propertyStep c obj e o = .ok r) : ∀ k ∈ obj.map (·.1), k ∈ r.map (·.1) := by
  have hw := weight_eq e
  intro k hk
  unfold propertyStep at hr
  split at hr <;> try (cases hr; exact hk)
  · rename_i d hd
    rw [hd] at hw; simp only [weightData] at hw
    cases d with
    | none => cases hr; exact hk
    | some d =>
      simp only [weightOpt] at hw; dsimp only at hr
      split at hr
      · exact h d (by omega) _ _ _ hr k hk
      · cases hr; exact hk
  · split at hr
    · split at hr
      · cases hr; exact hk
      · obtain ⟨key, _, hr⟩ := bind_ok.1 hr
        split at hr
        · cases hr; exact hk
        · obtain ⟨x, hx, hr⟩ := bind_ok.1 hr
          cases hr
          exact (emplaceUnique_keys _ _ _ _).2 (.inl hk)
    · cases hr
    · split at hr
      · cases hr
      · obtain ⟨key, _, hr⟩ := bind_ok.1 hr
        split at hr
        · cases hr; exact hk
        · cases hr
  · obtain ⟨q, hq, hr⟩ := bind_ok.1 hr
    exact h q (resolve_weight hq) _ _ _ hr k hk
  · rename_i es hd
    rw [hd] at hw; simp only [weightData] at hw
    exact firstOption_keys h o es (by omega) _ _ hr k hk
  · obtain ⟨x, hx, hr⟩ := bind_ok.1 hr
    split at hr
    · cases hr; exact (mixin_keys _ _ _).2 (.inl hk)
    · cases hr; exact hk
  · rename_i es hd
    rw [hd] at hw; simp only [weightData] at hw
    obtain ⟨m, hm, hr⟩ := bind_ok.1 hr
    have := mergeF_weight hm
    exact h m (by omega) _ _ _ hr k hk

theorem renderN_keys (n : Nat) : KeepsKeys (n + 1) (renderN n) := by
  induction n with
  | zero => intro x hx; have := weight_pos x; omega
  | succ n ih =>
    intro x hx obj o r hr
    exact propertyStep_keys (fun y hy => ih y (by omega)) hr

theorem full_keys (x : Elem) (obj r : List (Bytes × Value)) (o : Flags) (h : full.property obj x o = .ok r) :
    ∀ k ∈ obj.map (·.1), k ∈ r.map (·.1) := renderN_keys (weight x) x (by omega) _ _ _ h

theorem renderKey_string {key : Elem} {k : Bytes} (h1 : key.data = .string k) (h2 : key.has = true) : renderKey key = .ok k := by
  unfold renderKey
  obtain ⟨n, hn⟩ := Nat.exists_eq_succ_of_ne_zero (Nat.pos_iff_ne_zero.1 (weight_pos key))
  rw [hn, renderKeyN, h1]; simp [h2]

theorem properties_present (o : Flags) (es : List Elem) : ∀ (obj r : List (Bytes × Value)), properties full o obj es = .ok r →
    (∀ k ∈ obj.map (·.1), k ∈ r.map (·.1)) ∧ ∀ m ∈ es, ∀ k x, Present m k x → k ∈ r.map (·.1) := by
  induction es with
  | nil => intro obj r h; simp [properties] at h; subst h; simp
  | cons e es ih =>
    intro obj r h
    simp only [properties] at h
    obtain ⟨o', _, h⟩ := bind_ok.1 h
    obtain ⟨obj', h1, h⟩ := bind_ok.1 h
    obtain ⟨i1, i2⟩ := ih _ _ h
    refine ⟨fun k hk => i1 k (full_keys _ _ _ _ h1 k hk), ?_⟩
    intro m hm k x hp
    rcases List.mem_cons.1 hm with rfl | hm
    · apply i1
      obtain ⟨⟨key, hd, hk1, hk2, hk3⟩, hopt⟩ := hp
      rw [full_property, propertyStep, hd] at h1
      simp only at h1
      rw [if_neg (by rcases hopt with h | h <;> simp [h]), renderKey_string hk1 hk2] at h1
      simp only [Except.bind] at h1
      rw [if_neg (by simpa using hk3)] at h1
      cases hx : full.value x (update m o') with
      | error e => rw [hx] at h1; cases h1
      | ok y => rw [hx] at h1; cases h1; exact (emplaceUnique_keys _ _ _ _).2 (.inr rfl)
    · exact i2 m hm k x hp

theorem emplaceUnique_new (c : List (Bytes × Value)) (k : Bytes) (v : Value) (h : k ∉ c.map (·.1)) :
    So.emplaceUnique c k v = c ++ [(k, v)] := by
  induction c with
  | nil => rfl
  | cons p r ih =>
    obtain ⟨a, w⟩ := p
    simp only [List.map_cons, List.mem_cons, not_or] at h
    simp only [So.emplaceUnique]
    rw [if_neg (fun h' => h.1 h'.symm), ih h.2]; rfl

/-- Plain properties with different names: the object has exactly those that are present, in order. -/
theorem properties_exact (o : Flags) (ps : List (Elem × Bytes × Elem)) (hp : ∀ q ∈ ps, Property q.1 q.2.1 q.2.2)
    (hn : (ps.map (·.2.1)).Nodup) :
    ∀ (obj r : List (Bytes × Value)), properties full o obj (ps.map (·.1)) = .ok r → (∀ k ∈ ps.map (·.2.1), k ∉ obj.map (·.1)) →
    ∃ ms, r = obj ++ ms ∧ List.Forall₂ (fun (q : Elem × Bytes × Elem) (p : Bytes × Value) => p.1 = q.2.1 ∧
        ∃ f, inheritsFixed q.1 = .ok f ∧ full.value q.2.2 ⟨o.fixed && f || hasFixed q.1, hasNullable q.1⟩ = .ok p.2)
      (ps.filter fun q => !hasOptional q.1 || definesValue q.2.2) ms := by
  induction ps with
  | nil => intro obj r h _; simp [properties] at h; subst h; exact ⟨[], by simp, by simp⟩
  | cons q ps ih =>
    obtain ⟨m, k, x⟩ := q
    intro obj r h hk
    simp only [List.map_cons, List.nodup_cons] at hn
    obtain ⟨key, hd, hk1, hk2, hk3⟩ := hp _ (List.mem_cons_self)
    simp only at hd hk1 hk3
    simp only [List.map_cons, properties] at h
    obtain ⟨o', ho', h⟩ := bind_ok.1 h
    obtain ⟨obj', h1, h⟩ := bind_ok.1 h
    obtain ⟨f, hf, ho'⟩ := bind_ok.1 ho'
    cases ho'
    rw [full_property, propertyStep, hd] at h1
    simp only at h1
    have hko : k ∉ obj.map (·.1) := hk k (by simp)
    by_cases hopt : (hasOptional m && !definesValue x) = true
    · rw [if_pos hopt] at h1
      cases h1
      obtain ⟨ms, hr, hms⟩ := ih (fun q hq => hp q (by simp [hq])) hn.2 _ _ h (fun k' hk' => hk k' (by simp [hk']))
      refine ⟨ms, hr, ?_⟩
      rw [List.filter_cons_of_neg (by
        simp only [Bool.and_eq_true, Bool.not_eq_true'] at hopt
        simp [hopt.1, hopt.2])]
      exact hms
    · rw [if_neg hopt, renderKey_string hk1 hk2] at h1
      simp only [Except.bind] at h1
      rw [if_neg (by simpa using hk3)] at h1
      cases hx : full.value x (update m ⟨o.fixed && f, false⟩) with
      | error e => rw [hx] at h1; cases h1
      | ok y =>
        rw [hx] at h1
        simp only at h1
        cases h1
        rw [emplaceUnique_new _ _ _ hko] at h
        obtain ⟨ms, hr, hms⟩ := ih (fun q hq => hp q (by simp [hq])) hn.2 _ _ h (by
          intro k' hk'
          simp only [List.map_append, List.map_cons, List.map_nil, List.mem_append, List.mem_singleton, not_or]
          exact ⟨hk k' (by simp only [List.map_cons, List.mem_cons]; exact .inr hk'), fun hkk => hn.1 (hkk ▸ hk')⟩)
        refine ⟨(k, y) :: ms, by rw [hr]; simp, ?_⟩
        rw [List.filter_cons_of_pos (by
          simp only [Bool.and_eq_true, Bool.not_eq_true'] at hopt
          by_cases h5 : hasOptional m = true
          · have : definesValue x = true := by
              by_contra h6
              exact hopt ⟨h5, by simpa using h6⟩
            simp [this]
          · simp [h5])]
        refine List.Forall₂.cons ⟨rfl, f, hf, ?_⟩ hms
        simpa [update] using hx

end Verif.JsonValue
