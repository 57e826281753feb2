import Verif.Model.JsonSchema
import Verif.Proof.ElementSize
import Verif.Proof.JsonValue
import Verif.Spec.Schema
/-! Termination of the generation of schemas, and the recursion equations without a bound. -/
namespace Verif.JsonSchema
open Verif Verif.Refract
open Verif.JsonValue (bind_ok bind_fuel bind_congr map_fuel map_ok asArray_weight)

theorem inheritOrPass_fuel (o : Flags) (e : Elem) : inheritOrPass o e ≠ .error .fuel :=
  bind_fuel (inheritsFixed_fuel e) (fun _ _ => by simp)

/-- The calls on elements lighter than `w` are the same. -/
def Agree (w : Nat) (c c' : Calls) : Prop :=
  ∀ x, weight x < w → (∀ s o, c.schema s x o = c'.schema s x o) ∧ (∀ s o, c.property s x o = c'.property s x o)

theorem makeSchema_congr {c c' : Calls} {w : Nat} (h : Agree w c c') {e : Elem} (he : weight e < w) (o : Flags) :
    makeSchema c e o = makeSchema c' e o := by
  unfold makeSchema; rw [(h e he).1]

theorem properties_congr {c c' : Calls} {w : Nat} (h : Agree w c c') (o : Flags) (es : List Elem) (hes : weightList es < w) :
    ∀ s, properties c o s es = properties c' o s es := by
  induction es with
  | nil => intro s; rfl
  | cons e es ih =>
    intro s
    rw [weightList] at hes
    simp only [properties]
    refine bind_congr fun o' _ => ?_
    rw [(h e (by omega)).2]
    exact bind_congr fun s' _ => ih (by omega) s'

theorem itemSchemas_congr {c c' : Calls} {w : Nat} (h : Agree w c c') (o : Flags) (es : List Elem) (hes : weightList es < w) :
    itemSchemas c o es = itemSchemas c' o es := by
  induction es with
  | nil => rfl
  | cons e es ih =>
    rw [weightList] at hes
    simp only [itemSchemas]
    refine bind_congr fun o' _ => ?_
    rw [makeSchema_congr h (by omega)]
    refine bind_congr fun v _ => ?_
    rw [ih (by omega)]

theorem enumEntries_congr {c c' : Calls} {w : Nat} (h : Agree w c c') (o : Flags) (es : List Elem) (hes : weightList es < w) :
    ∀ a b, enumEntries c o a b es = enumEntries c' o a b es := by
  induction es with
  | nil => intro a b; rfl
  | cons e es ih =>
    intro a b
    rw [weightList] at hes
    simp only [enumEntries]
    refine bind_congr fun size _ => ?_
    split
    · exact bind_congr fun v _ => ih (by omega) _ _
    · rw [(h e (by omega)).1]
      exact bind_congr fun v _ => ih (by omega) _ _

theorem arrayEntries_congr {c c' : Calls} {w : Nat} (h : Agree w c c') (e : Elem) (es : List Elem) (hes : weightList es < w) (o : Flags) :
    arrayEntries c e es o = arrayEntries c' e es o := by
  unfold arrayEntries
  have hn : itemSchemas c o [] = itemSchemas c' o [] := rfl
  split
  · split
    · rfl
    · split
      · rename_i x
        simp only [weightList] at hes
        refine bind_congr fun o' _ => ?_
        rw [makeSchema_congr h (by omega)]
      · rw [itemSchemas_congr h o es hes]
  · split
    · split
      · rw [itemSchemas_congr h o es hes]
      · rw [hn]
    · rfl

theorem schemaStep_congr {c c' : Calls} {e : Elem} (h : Agree (weight e) c c') (s : Entries) (o : Flags) :
    schemaStep c s e o = schemaStep c' s e o := by
  have hw := weight_eq e
  unfold schemaStep
  split <;> try rfl
  · rename_i d hd
    rw [hd] at hw; simp only [weightData] at hw
    cases d with
    | none => rfl
    | some d => simp only [weightOpt] at hw; dsimp only; rw [(h d (by omega)).1]
  · refine bind_congr fun r hr => ?_
    rw [(h r (resolve_weight hr)).1]
  · rename_i es hd
    rw [hd] at hw; simp only [weightData] at hw
    dsimp only
    rw [properties_congr h _ es (by omega)]
  · rename_i es hd
    rw [hd] at hw; simp only [weightData] at hw
    dsimp only
    rw [arrayEntries_congr h e es (by omega)]
  · rename_i v hd
    rw [hd] at hw; simp only [weightData] at hw
    dsimp only
    split
    · rfl
    · rename_i x hx
      have h1 := weightInfos_find hx
      split
      · rfl
      · rename_i es hes
        have h2 := asArray_weight hes
        cases x.has
        · rfl
        · simp only [enumEntries_congr h _ es (show weightList es < weight e by omega), ↓reduceIte]
  · rename_i es hd
    rw [hd] at hw; simp only [weightData] at hw
    refine bind_congr fun m hm => ?_
    have := mergeF_weight hm
    rw [(h m (by omega)).1]

theorem optionEntries_congr {c c' : Calls} {w : Nat} (h : Agree w c c') (o : Flags) (es : List Elem) (hes : weightList es < w) :
    ∀ s, optionEntries c o s es = optionEntries c' o s es := by
  induction es with
  | nil => intro s; rfl
  | cons e es ih =>
    intro s
    rw [weightList] at hes
    simp only [optionEntries]
    rw [(h e (by omega)).2]
    exact bind_congr fun s' _ => ih (by omega) s'

theorem mixinEntries_congr {c c' : Calls} {w : Nat} (h : Agree w c c') (o : Flags) (es : List Elem) (hes : weightList es < w) :
    ∀ s, mixinEntries c o s es = mixinEntries c' o s es := by
  induction es with
  | nil => intro s; rfl
  | cons e es ih =>
    intro s
    rw [weightList] at hes
    simp only [mixinEntries]
    rw [(h e (by omega)).2]
    exact bind_congr fun s' _ => ih (by omega) s'

theorem optionSchemas_congr {c c' : Calls} {w : Nat} (h : Agree w c c') (o : Flags) (es : List Elem) (hes : weightList es < w) :
    optionSchemas c o es = optionSchemas c' o es := by
  induction es with
  | nil => rfl
  | cons e es ih =>
    rw [weightList] at hes
    simp only [optionSchemas]
    split
    · rename_i os hd
      have := weight_of_data hd
      simp only [weightData] at this
      rw [ih (by omega), optionEntries_congr h o os (by omega)]
    · rfl

theorem propertyStep_congr {c c' : Calls} {e : Elem} (h : Agree (weight e) c c') (s : ObjectSchema) (o : Flags) :
    propertyStep c s e o = propertyStep c' s e o := by
  have hw := weight_eq e
  unfold propertyStep
  split <;> try rfl
  · rename_i k v hd
    rw [hd] at hw; simp only [weightData] at hw
    dsimp only
    have hv : ∀ v', v = some v' → ∀ o, makeSchema c v' o = makeSchema c' v' o := by
      intro v' h' o
      subst h'
      simp only [weightOpt] at hw
      exact makeSchema_congr h (by omega) o
    cases v with
    | none => rfl
    | some v => simp only [hv v rfl]
  · rename_i d hd
    rw [hd] at hw; simp only [weightData] at hw
    cases d with
    | none => rfl
    | some d => simp only [weightOpt] at hw; dsimp only; rw [(h d (by omega)).2]
  · refine bind_congr fun r hr => ?_
    rw [(h r (resolve_weight hr)).2]
  · rename_i es hd
    rw [hd] at hw; simp only [weightData] at hw
    rw [optionSchemas_congr h o es (by omega)]
  · rename_i es hd
    rw [hd] at hw; simp only [weightData] at hw
    rw [mixinEntries_congr h _ es (by omega)]
  · rename_i es hd
    rw [hd] at hw; simp only [weightData] at hw
    refine bind_congr fun m hm => ?_
    have := mergeF_weight hm
    rw [(h m (by omega)).2]

/-- Two bounds that are both large enough give the same calls. -/
theorem renderN_agree (n : Nat) : ∀ m, n ≤ m → Agree (n + 1) (renderN n) (renderN m) := by
  induction n with
  | zero => intro m _ x hx; have := weight_pos x; omega
  | succ n ih =>
    intro m hm x hx
    cases m with
    | zero => omega
    | succ m =>
      have ha : Agree (weight x) (renderN n) (renderN m) := fun y hy => ih m (by omega) y (by omega)
      exact ⟨fun s o => schemaStep_congr ha s o, fun s o => propertyStep_congr ha s o⟩

/-- The calls with a bound that is large enough for the element. -/
def full : Calls := ⟨fun s e => (renderN (weight e)).schema s e, fun s e => (renderN (weight e)).property s e⟩

theorem agree_full (n : Nat) : Agree (n + 1) full (renderN n) := by
  intro x hx
  exact renderN_agree (weight x) n (by omega) x (by omega)

theorem full_schema (s : Entries) (e : Elem) (o : Flags) : full.schema s e o = schemaStep full s e o := by
  obtain ⟨n, hn⟩ := Nat.exists_eq_succ_of_ne_zero (Nat.pos_iff_ne_zero.1 (weight_pos e))
  have h : Agree (weight e) full (renderN n) := by rw [hn]; exact agree_full n
  show (renderN (weight e)).schema s e o = _
  rw [schemaStep_congr h, hn]; rfl

theorem full_property (s : ObjectSchema) (e : Elem) (o : Flags) : full.property s e o = propertyStep full s e o := by
  obtain ⟨n, hn⟩ := Nat.exists_eq_succ_of_ne_zero (Nat.pos_iff_ne_zero.1 (weight_pos e))
  have h : Agree (weight e) full (renderN n) := by rw [hn]; exact agree_full n
  show (renderN (weight e)).property s e o = _
  rw [propertyStep_congr h, hn]; rfl

/-! ## The entries that are there before are kept -/

theorem schemaStep_prefix {c : Calls} {e : Elem}
    (h : ∀ x, weight x < weight e → ∀ s o, c.schema s x o = (c.schema [] x o).map (s ++ ·)) (s : Entries) (o : Flags) :
    schemaStep c s e o = (schemaStep c [] e o).map (s ++ ·) := by
  have hw := weight_eq e
  have addE : ∀ s vs, addEnum s vs = s ++ addEnum [] vs := by
    intro s vs; unfold addEnum; split <;> simp
  have bm : ∀ {α : Type} (x : R α) (f : α → Entries) (g : α → Entries), (∀ a, f a = s ++ g a) →
      (x.bind fun a => .ok (f a)) = (x.bind fun a => (.ok (g a) : R Entries)).map (s ++ ·) := by
    intro α x f g hfg
    cases x with
    | error e => rfl
    | ok a => simp [Except.bind, Except.map, hfg]
  have wrap : ∀ o a, wrapNullable s o a = s ++ wrapNullable [] o a := by
    intro o a; unfold wrapNullable; split <;> simp
  have prim : ∀ t, schemaPrimitive s e o t = s ++ schemaPrimitive [] e o t := by
    intro t; unfold schemaPrimitive; dsimp only; split
    · rw [addE]
    · split <;> simp
  have enm : ∀ a b, enumSchema s a b = s ++ enumSchema [] a b := by
    intro a b; unfold enumSchema; split
    · rw [addE]
    · simp
  unfold schemaStep
  split
  · rename_i d hd
    rw [hd] at hw; simp only [weightData] at hw
    cases d with
    | none => simp [Except.map]
    | some d =>
      simp only [weightOpt] at hw; dsimp only
      split
      · exact h d (by omega) s o
      · simp [Except.map]
  · cases hr : resolve e with
    | error x => rfl
    | ok r => exact h r (resolve_weight hr) s o
  · exact bm _ _ _ fun q => wrap _ _
  · exact bm _ _ _ fun q => wrap _ _
  · dsimp only
    split
    · rw [enm]; rfl
    · split
      · rfl
      · exact bm _ _ _ fun q => enm _ _
  · simp [Except.map]
  · simp [Except.map, impossible]
  · simp [Except.map, impossible]
  · simp [Except.map, impossible]
  · rw [prim]; rfl
  · rw [prim]; rfl
  · rw [prim]; rfl
  · rename_i es hd
    rw [hd] at hw; simp only [weightData] at hw
    cases hm : mergeF es with
    | error x => rfl
    | ok m =>
      have := mergeF_weight hm
      exact h m (by omega) s o

theorem renderN_prefix (n : Nat) : ∀ x, weight x < n + 1 → ∀ s o, (renderN n).schema s x o = ((renderN n).schema [] x o).map (s ++ ·) := by
  induction n with
  | zero => intro x hx; have := weight_pos x; omega
  | succ n ih =>
    intro x hx s o
    exact schemaStep_prefix (fun y hy => ih y (by omega)) s o

theorem full_prefix (s : Entries) (e : Elem) (o : Flags) : full.schema s e o = (full.schema [] e o).map (s ++ ·) :=
  renderN_prefix _ e (by omega) s o

/-! ## The bound is never exceeded -/

/-- No call on an element lighter than `w` exceeds the bound. -/
def NoFuel (w : Nat) (c : Calls) : Prop :=
  ∀ x, weight x < w → (∀ s o, c.schema s x o ≠ .error .fuel) ∧ (∀ s o, c.property s x o ≠ .error .fuel)

theorem makeSchema_fuel {c : Calls} {w : Nat} (h : NoFuel w c) {e : Elem} (he : weight e < w) (o : Flags) :
    makeSchema c e o ≠ .error .fuel := bind_fuel ((h e he).1 _ _) fun _ _ => by simp

theorem properties_fuel {c : Calls} {w : Nat} (h : NoFuel w c) (o : Flags) (es : List Elem) (hes : weightList es < w) :
    ∀ s, properties c o s es ≠ .error .fuel := by
  induction es with
  | nil => intro s; simp [properties]
  | cons e es ih =>
    intro s
    rw [weightList] at hes
    simp only [properties]
    exact bind_fuel (inheritOrPass_fuel _ _) fun o' _ => bind_fuel ((h e (by omega)).2 _ _) fun s' _ => ih (by omega) s'

theorem itemSchemas_fuel {c : Calls} {w : Nat} (h : NoFuel w c) (o : Flags) (es : List Elem) (hes : weightList es < w) :
    itemSchemas c o es ≠ .error .fuel := by
  induction es with
  | nil => simp [itemSchemas]
  | cons e es ih =>
    rw [weightList] at hes
    simp only [itemSchemas]
    exact bind_fuel (inheritOrPass_fuel _ _) fun o' _ => bind_fuel (makeSchema_fuel h (by omega) _) fun v _ =>
      bind_fuel (ih (by omega)) fun _ _ => by simp

theorem enumEntries_fuel {c : Calls} {w : Nat} (h : NoFuel w c) (o : Flags) (es : List Elem) (hes : weightList es < w) :
    ∀ a b, enumEntries c o a b es ≠ .error .fuel := by
  induction es with
  | nil => intro a b; simp [enumEntries]
  | cons e es ih =>
    intro a b
    rw [weightList] at hes
    simp only [enumEntries]
    refine bind_fuel (sizeOfN_fuel _ e _ (Nat.le_refl _)) fun size _ => ?_
    split
    · exact bind_fuel ((JsonValue.renderN_fuel _ e (by omega)).1 _) fun v _ => ih (by omega) _ _
    · exact bind_fuel ((h e (by omega)).1 _ _) fun v _ => ih (by omega) _ _

theorem arrayEntries_fuel {c : Calls} {w : Nat} (h : NoFuel w c) (e : Elem) (es : List Elem) (hes : weightList es < w) (o : Flags) :
    arrayEntries c e es o ≠ .error .fuel := by
  unfold arrayEntries
  split
  · split
    · simp
    · split
      · rename_i x
        simp only [weightList] at hes
        exact bind_fuel (inheritOrPass_fuel _ _) fun o' _ => bind_fuel (makeSchema_fuel h (by omega) _) fun _ _ => by simp
      · exact bind_fuel (itemSchemas_fuel h o es hes) fun _ _ => by simp
  · split
    · split
      · exact bind_fuel (itemSchemas_fuel h o es hes) fun _ _ => by simp
      · simp [itemSchemas, Except.bind]
    · simp

theorem schemaStep_fuel {c : Calls} {e : Elem} (h : NoFuel (weight e) c) (s : Entries) (o : Flags) :
    schemaStep c s e o ≠ .error .fuel := by
  have hw := weight_eq e
  unfold schemaStep
  split <;> try simp
  · rename_i d hd
    rw [hd] at hw; simp only [weightData] at hw
    cases d with
    | none => simp
    | some d =>
      simp only [weightOpt] at hw; dsimp only
      split
      · exact (h d (by omega)).1 _ _
      · simp
  · exact bind_fuel (resolve_fuel e) fun r hr => (h r (resolve_weight hr)).1 _ _
  · rename_i es hd
    rw [hd] at hw; simp only [weightData] at hw
    refine bind_fuel ?_ fun _ _ => by simp
    split
    · simp
    · exact properties_fuel h _ es (by omega) _
  · rename_i es hd
    rw [hd] at hw; simp only [weightData] at hw
    exact bind_fuel (arrayEntries_fuel h e es (by omega) _) fun _ _ => by simp
  · rename_i v hd
    rw [hd] at hw; simp only [weightData] at hw
    split
    · simp
    · rename_i x hx
      have h1 := weightInfos_find hx
      split
      · simp
      · rename_i es hes
        have h2 := asArray_weight hes
        refine bind_fuel (enumEntries_fuel h _ _ ?_ _ _) fun _ _ => by simp
        split
        · omega
        · simp only [weightList]; omega
  · rename_i es hd
    rw [hd] at hw; simp only [weightData] at hw
    refine bind_fuel (mergeF_fuel es) fun m hm => ?_
    have := mergeF_weight hm
    exact (h m (by omega)).1 _ _

theorem optionEntries_fuel {c : Calls} {w : Nat} (h : NoFuel w c) (o : Flags) (es : List Elem) (hes : weightList es < w) :
    ∀ s, optionEntries c o s es ≠ .error .fuel := by
  induction es with
  | nil => intro s; simp [optionEntries]
  | cons e es ih =>
    intro s
    rw [weightList] at hes
    simp only [optionEntries]
    exact bind_fuel ((h e (by omega)).2 _ _) fun s' _ => ih (by omega) s'

theorem mixinEntries_fuel {c : Calls} {w : Nat} (h : NoFuel w c) (o : Flags) (es : List Elem) (hes : weightList es < w) :
    ∀ s, mixinEntries c o s es ≠ .error .fuel := by
  induction es with
  | nil => intro s; simp [mixinEntries]
  | cons e es ih =>
    intro s
    rw [weightList] at hes
    simp only [mixinEntries]
    exact bind_fuel ((h e (by omega)).2 _ _) fun s' _ => ih (by omega) s'

theorem optionSchemas_fuel {c : Calls} {w : Nat} (h : NoFuel w c) (o : Flags) (es : List Elem) (hes : weightList es < w) :
    optionSchemas c o es ≠ .error .fuel := by
  induction es with
  | nil => simp [optionSchemas]
  | cons e es ih =>
    rw [weightList] at hes
    simp only [optionSchemas]
    split
    · rename_i os hd
      have := weight_of_data hd
      simp only [weightData] at this
      split
      · exact ih (by omega)
      · exact bind_fuel (optionEntries_fuel h o os (by omega) _) fun _ _ => bind_fuel (ih (by omega)) fun _ _ => by simp
    · simp

theorem propertyStep_fuel {c : Calls} {e : Elem} (h : NoFuel (weight e) c) (s : ObjectSchema) (o : Flags) :
    propertyStep c s e o ≠ .error .fuel := by
  have hw := weight_eq e
  unfold propertyStep
  split <;> try simp
  · rename_i k v hd
    rw [hd] at hw; simp only [weightData] at hw
    have hv : ∀ v', v = some v' → ∀ o, makeSchema c v' o ≠ .error .fuel := by
      intro v' h' o
      subst h'
      simp only [weightOpt] at hw
      exact makeSchema_fuel h (by omega) o
    cases k with
    | none => simp
    | some k =>
      dsimp only
      split
      · refine bind_fuel ?_ fun p _ => ?_
        · split
          · refine bind_fuel (mergeF_fuel _) fun m _ => ?_
            split <;> simp
          · simp
          · simp
        · cases p with
          | none => simp
          | some p => cases v with
            | none => simp
            | some v => exact bind_fuel (hv v rfl _) fun _ _ => by simp
      · cases v with
        | none => simp
        | some v => exact bind_fuel (hv v rfl _) fun _ _ => by simp
  · rename_i d hd
    rw [hd] at hw; simp only [weightData] at hw
    cases d with
    | none => simp
    | some d =>
      simp only [weightOpt] at hw; dsimp only
      split
      · exact (h d (by omega)).2 _ _
      · simp
  · exact bind_fuel (resolve_fuel e) fun r hr => (h r (resolve_weight hr)).2 _ _
  · rename_i es hd
    rw [hd] at hw; simp only [weightData] at hw
    exact bind_fuel (optionSchemas_fuel h o es (by omega)) fun _ _ => by simp
  · rename_i es hd
    rw [hd] at hw; simp only [weightData] at hw
    split
    · simp
    · exact mixinEntries_fuel h _ es (by omega) _
  · rename_i es hd
    rw [hd] at hw; simp only [weightData] at hw
    refine bind_fuel (mergeF_fuel es) fun m hm => ?_
    have := mergeF_weight hm
    exact (h m (by omega)).2 _ _

theorem renderN_fuel (n : Nat) : NoFuel (n + 1) (renderN n) := by
  induction n with
  | zero => intro x hx; have := weight_pos x; omega
  | succ n ih =>
    intro x hx
    have ha : NoFuel (weight x) (renderN n) := fun y hy => ih y (by omega)
    exact ⟨fun s o => schemaStep_fuel ha s o, fun s o => propertyStep_fuel ha s o⟩

end Verif.JsonSchema
