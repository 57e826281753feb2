import Verif.Proof.Parameters
/-!
# C39, C51, C52: parameters
-/
namespace Verif.Props
open Verif Verif.Spec Verif.Parameters

/-! ## C39 -/

/-- C39.  The parameters of a section are the last definitions of each name, in the order of these definitions, with their own source
    maps; there is one warning for each definition of a name given before. -/
theorem C39_parameters {M} (exportMaps : Bool) (items : List (Parameter × M)) :
    (addParameters exportMaps items).node = (keepLast items).map (·.1) ∧
    (addParameters exportMaps items).sourceMap = (if exportMaps then (keepLast items).map (·.2) else []) ∧
    (addParameters exportMaps items).warnings = redefined [] items := by
  rw [addParameters_eq]; exact ⟨rfl, rfl, rfl⟩

/-- C39.  Each name occurs once. -/
theorem C39_unique {M} (exportMaps : Bool) (items : List (Parameter × M)) : ((addParameters exportMaps items).node.map (·.name)).Nodup := by
  rw [addParameters_eq, List.map_map]; exact keepLast_nodup items

/-- C39.  The last definition of a name is kept, and nothing that was not given is. -/
theorem C39_last_wins {M} (exportMaps : Bool) (items : List (Parameter × M)) (p : Parameter) :
    p ∈ (addParameters exportMaps items).node ↔ ∃ a m b, items = a ++ (p, m) :: b ∧ p.name ∉ b.map (·.1.name) := by
  rw [addParameters_eq]
  show p ∈ (keepLast items).map (·.1) ↔ _
  rw [List.mem_map]
  constructor
  · rintro ⟨x, hx, rfl⟩
    clear exportMaps
    induction items with
    | nil => simp [keepLast] at hx
    | cons y ys ih =>
      simp only [keepLast] at hx
      split at hx
      · obtain ⟨a, m, b, h1, h2⟩ := ih hx; exact ⟨y :: a, m, b, by rw [h1]; rfl, h2⟩
      · rcases List.mem_cons.1 hx with rfl | hx
        · exact ⟨[], x.2, ys, rfl, by assumption⟩
        · obtain ⟨a, m, b, h1, h2⟩ := ih hx; exact ⟨y :: a, m, b, by rw [h1]; rfl, h2⟩
  · rintro ⟨a, m, b, rfl, h⟩
    exact ⟨(p, m), keepLast_last h, rfl⟩

/-- C39.  With source maps there is one for each parameter, and it is the one of its definition. -/
theorem C39_maps {M} (items : List (Parameter × M)) :
    (addParameters true items).sourceMap.length = (addParameters true items).node.length ∧
    ∀ x ∈ (addParameters true items).node.zip (addParameters true items).sourceMap, x ∈ items := by
  rw [addParameters_eq]
  refine ⟨by simp, ?_⟩
  intro x hx
  simp only [if_true] at hx
  rw [List.zip_map'] at hx
  obtain ⟨y, hy, rfl⟩ := List.mem_map.1 hx
  exact keepLast_mem hy

/-- C39.  The number of warnings is the number of definitions lost. -/
theorem C39_warning_count {M} (exportMaps : Bool) (items : List (Parameter × M)) :
    (addParameters exportMaps items).warnings.length + (addParameters exportMaps items).node.length = items.length := by
  rw [addParameters_eq]
  simp only [List.length_map]
  induction items using List.reverseRecOn with
  | nil => rfl
  | append_singleton xs x ih =>
    rw [keepLast_snoc, redefined_snoc]
    simp only [List.length_append, List.length_singleton]
    by_cases h : x.1.name ∈ xs.map (·.1.name)
    · rw [if_pos (.inr h)]
      have hlen : ((keepLast xs).filter (fun y => y.1.name ≠ x.1.name)).length + 1 = (keepLast xs).length := by
        have hn := keepLast_nodup xs
        have hm := keepLast_names.2 h
        generalize keepLast xs = l at hn hm
        clear ih h
        induction l with
        | nil => simp at hm
        | cons y l ih =>
          simp only [List.map_cons, List.nodup_cons, List.mem_cons] at hn hm
          rw [List.filter_cons]
          by_cases hy : y.1.name = x.1.name
          · rw [if_neg (by simp [hy]), List.filter_eq_self.2]
            · rfl
            · intro z hz; simp only [ne_eq, decide_not, Bool.not_eq_true', decide_eq_false_iff_not]
              intro he; exact hn.1 (by rw [hy, ← he]; exact List.mem_map_of_mem hz)
          · rw [if_pos (by simp [hy]), List.length_cons, ih hn.2 (hm.resolve_left (fun h => hy h.symm)), List.length_cons]
      simp only [List.length_singleton]; omega
    · rw [if_neg (by rintro (h' | h'); · simp at h'
                     · exact h h')]
      rw [List.filter_eq_self.2]
      · simp only [List.length_nil]; omega
      · intro z hz; simp only [ne_eq, decide_not, Bool.not_eq_true', decide_eq_false_iff_not]
        intro he; exact h (he ▸ keepLast_names.1 (List.mem_map_of_mem (f := fun x => x.1.name) hz))

/-- C39 and C37.  A parameter is reported exactly when the URI template has no variable of its name. -/
theorem C39_eligible (uri : Bytes) (ps : List Parameter) (n : Bytes) :
    n ∈ notFound uri ps ↔ (∃ p ∈ ps, p.name = n) ∧ ¬ HasVariable uri n := by
  unfold notFound
  rw [List.mem_map]
  simp only [List.mem_filter, Bool.not_eq_true', List.contains_eq_mem, decide_eq_false_iff_not, variableNames_iff]
  constructor
  · rintro ⟨p, ⟨hp, hv⟩, rfl⟩; exact ⟨⟨p, hp, rfl⟩, hv⟩
  · rintro ⟨⟨p, hp, rfl⟩, hv⟩; exact ⟨p, ⟨hp, hv⟩, rfl⟩

/-- Three definitions, two names. -/
example : (addParameters true [({ name := str "a", type := str "x" }, 1), ({ name := str "b" }, 2), ({ name := str "a" }, 3)]).node.map (·.name) =
    [str "b", str "a"] ∧
    (addParameters true [({ name := str "a", type := str "x" }, 1), ({ name := str "b" }, 2), ({ name := str "a" }, 3)]).sourceMap = [2, 3] ∧
    (addParameters true [({ name := str "a", type := str "x" }, 1), ({ name := str "b" }, 2), ({ name := str "a" }, 3)]).warnings = [str "a"] := by
  decide

/-- One parameter of the template, one that is not. -/
example : notFound (str "/a{?b}") [{ name := str "a" }, { name := str "b" }] = [str "a"] := by decide +kernel

/-! ## C51 -/

/-- C51, partial: attributes with at most one use, one type and one sample value are read whatever their order: each says what it says,
    the others are as before, and there is no warning.  Missing: several uses (`C51_two_uses_refuted`) and several samples (the last
    wins). -/
theorem C51_traits_partial (old : Bool) (as : List Bytes) (e : Bytes) (ts : List Trait) (hsays : List.Forall₂ (Says old) as ts)
    (h0 : ∀ a ∈ as, a ≠ [] ∧ (0 : UInt8) ∉ a) (hmax : as.length ≤ maxAttributes old)
    (hu : (ts.filter isUse).length ≤ 1) (ht : (ts.filter isType).length ≤ 1) (hs : (ts.filter isSample).length ≤ 1) :
    ∃ t, parseAttributes old as e = (t, false) ∧
      (∀ u, .use u ∈ ts → t.use = u) ∧ ((∀ u, .use u ∉ ts) → t.use = .undefined) ∧
      (∀ v, .sample v ∈ ts → t.exampleValue = v) ∧ ((∀ v, .sample v ∉ ts) → t.exampleValue = e) ∧
      (∀ a, .type a ∈ ts → t.type = if !old && !(insideEnum a).isEmpty then insideEnum a else a) ∧ ((∀ a, .type a ∉ ts) → t.type = []) := by
  have hts : ts = as.map (trait old) := by
    clear hu ht hs hmax
    induction hsays with
    | nil => rfl
    | cons h _ ih =>
      rw [List.map_cons, ← ih (fun a ha => h0 a (by simp [ha])), (says_trait (h0 _ (by simp)).2).1 h]
  have hr := (readAttributes_eq old as false { exampleValue := e } (fun a ha => (h0 a ha).1) (by rw [← hts]; simpa [count] using hu)).1
    (by rw [← hts]; simpa [count] using ht)
  rw [← hts] at hr
  have au := apply_use ts { exampleValue := e } hu
  have at' := apply_type ts { exampleValue := e } ht
  have as' := apply_sample ts { exampleValue := e } hs
  have hlen : ¬ as.length > (if old then 3 else 2) := by unfold maxAttributes at hmax; omega
  unfold parseAttributes
  simp only [if_neg hlen, hr]
  generalize apply ts { exampleValue := e } = t at au at' as'
  by_cases hc : (!old && !t.type.isEmpty && !(insideEnum t.type).isEmpty) = true
  · rw [if_pos hc]
    simp only [Bool.and_eq_true] at hc
    refine ⟨_, rfl, au.1, au.2, as'.1, as'.2, fun a ha => ?_, fun hn => ?_⟩
    · have := at'.1 a ha
      simp only at this ⊢
      subst this
      rw [if_pos (by simp only [Bool.and_eq_true]; exact ⟨hc.1.1, hc.2⟩)]
    · have := at'.2 hn
      simp only at this
      rw [this] at hc; simp at hc
  · rw [if_neg hc]
    refine ⟨_, rfl, au.1, au.2, as'.1, as'.2, fun a ha => ?_, fun hn => at'.2 hn⟩
    have := at'.1 a ha
    subst this
    rw [if_neg]
    intro h
    simp only [Bool.and_eq_true] at h
    apply hc
    simp only [Bool.and_eq_true]
    refine ⟨⟨h.1, ?_⟩, h.2⟩
    cases hty : t.type with
    | nil => rw [hty] at h; exact absurd h.2 (by decide)
    | cons c r => rfl

/-- C51.  Too many attributes, or two types, are reported, and then neither use nor type (nor, in the old syntax, sample) is set. -/
theorem C51_conflict (old : Bool) (as : List Bytes) (e : Bytes) (ts : List Trait) (hsays : List.Forall₂ (Says old) as ts)
    (h0 : ∀ a ∈ as, a ≠ [] ∧ (0 : UInt8) ∉ a) (hu : (ts.filter isUse).length ≤ 1) (hnew : old = true → e = [])
    (h : maxAttributes old < as.length ∨ 2 ≤ (ts.filter isType).length) :
    parseAttributes old as e = ({ exampleValue := e }, true) := by
  have hts : ts = as.map (trait old) := by
    clear hu h
    induction hsays with
    | nil => rfl
    | cons h _ ih =>
      rw [List.map_cons, ← ih (fun a ha => h0 a (by simp [ha])), (says_trait (h0 _ (by simp)).2).1 h]
  unfold parseAttributes
  by_cases hm : as.length > (if old then 3 else 2)
  · simp only [if_pos hm, cleared]
    cases old with
    | false => rfl
    | true => rw [hnew rfl]; rfl
  · simp only [if_neg hm]
    have h2 : 2 ≤ (ts.filter isType).length := h.resolve_left (by unfold maxAttributes; omega)
    have hw := (readAttributes_eq old as false { exampleValue := e } (fun a ha => (h0 a ha).1) (by rw [← hts]; simpa [count] using hu)).2
      (by rw [← hts]; simp [count]; omega)
    have hcl := cleared_of_warning old as false { exampleValue := e } e (fun _ => rfl) hw
    obtain ⟨⟨t, b⟩, hr⟩ : ∃ x, readAttributes old as false { exampleValue := e } = x := ⟨_, rfl⟩
    rw [hr] at hw hcl ⊢
    simp only at hw hcl
    subst hw hcl
    cases old with
    | false => rfl
    | true => rw [hnew rfl]; rfl

/-- C51, refutation of the reading "contradictory uses are reported": the second use becomes the type. -/
theorem C51_two_uses_refuted :
    parseAttributes true [str "optional", str "required"] [] = ({ use := .optional, type := str "required" }, false) := by decide +kernel

theorem says_of {old : Bool} {a : Bytes} (h0 : (0 : UInt8) ∉ a) : Says old a (trait old a) := (says_trait h0).2 rfl

/-- The hypotheses of `C51_traits_partial` hold of `(required, string, `x`)`. -/
example : List.Forall₂ (Says true) [str "required", str "string", str "`x`"] [.use .required, .type (str "string"), .sample (str "x")] ∧
    parseAttributes true [str "required", str "string", str "`x`"] [] = (⟨.required, str "string", str "x"⟩, false) := by
  refine ⟨.cons ?_ (.cons ?_ (.cons ?_ .nil)), by decide +kernel⟩
  · exact says_of (old := true) (a := str "required") (by decide)
  · exact says_of (old := true) (a := str "string") (by decide)
  · exact says_of (old := true) (a := str "`x`") (by decide)

/-- Two types. -/
example : parseAttributes false [str "string", str "number"] (str "e") = ({ exampleValue := str "e" }, true) := by decide +kernel
example : parseAttributes false [str "enum[ string ]"] [] = ({ type := str "string" }, false) := by decide +kernel

/-! ## C52 -/

/-- C52.  A default value is reported exactly when the parameter is not optional. -/
theorem C52_default (p : Parameter) : defaultClash p = true ↔ p.defaultValue ≠ [] ∧ p.use ≠ .optional := by
  unfold defaultClash
  simp only [Bool.and_eq_true, decide_eq_true_eq, Bool.not_eq_true', List.isEmpty_eq_false_iff]
  exact and_comm

/-- C52.  When the parameter lists its values, its sample and its default value are reported exactly when they are not among them. -/
theorem C52_values (p : Parameter) : (valuesWarning p).isSome ↔
    p.values ≠ [] ∧ ((p.exampleValue ≠ [] ∧ p.exampleValue ∉ p.values) ∨ (p.defaultValue ≠ [] ∧ p.defaultValue ∉ p.values)) := by
  have hany : ∀ v : Bytes, p.values.any (· == v) = true ↔ v ∈ p.values := by
    intro v; rw [List.any_eq_true]; simp
  have he : (p.values.any (· == p.exampleValue) = false) ↔ p.exampleValue ∉ p.values := by rw [← hany, Bool.not_eq_true]
  have hd : (p.values.any (· == p.defaultValue) = false) ↔ p.defaultValue ∉ p.values := by rw [← hany, Bool.not_eq_true]
  unfold valuesWarning
  split
  · rename_i h
    simp only [Bool.or_eq_true, Bool.and_eq_true, List.isEmpty_iff] at h
    constructor
    · intro h; simp at h
    · rintro ⟨h1, h2⟩
      rcases h with h | h
      · rcases h2 with h2 | h2
        · exact absurd h.1 h2.1
        · exact absurd h.2 h2.1
      · exact absurd h h1
  · rename_i h
    simp only [Bool.or_eq_true, Bool.and_eq_true, List.isEmpty_iff, not_or, not_and] at h
    dsimp only
    split
    · rename_i hc
      refine ⟨fun _ => ⟨h.2, ?_⟩, fun _ => rfl⟩
      simp only [Bool.or_eq_true, Bool.and_eq_true, Bool.not_eq_true', List.isEmpty_eq_false_iff, he, hd] at hc
      exact hc
    · rename_i hc
      simp only [Bool.or_eq_true, Bool.and_eq_true, Bool.not_eq_true', List.isEmpty_eq_false_iff, he, hd] at hc
      exact ⟨fun h => by simp at h, fun h => absurd h.2 hc⟩

example : (valuesWarning { name := str "a", exampleValue := str "x", values := [str "y"] }).isSome = true ∧
    (valuesWarning { name := str "a", exampleValue := str "x", values := [str "x"] }).isSome = false := by decide

end Verif.Props
