import Verif.Model.ElementUtils
import Verif.Proof.Extend
/-! Termination of the functions that recurse through `Extend::merge`. -/
namespace Verif.Refract
open Verif

theorem weight_mk (n : Bytes) (m a : Infos) (h : Bool) (d : Data) :
    weight (.mk n m a h d) = 1 + weightInfos a + weightData d := by rw [weight]

theorem weight_eq (e : Elem) : weight e = 1 + weightInfos e.attributes + weightData e.data := by
  cases e; rw [weight]; rfl

theorem weight_pos (e : Elem) : 0 < weight e := by rw [weight_eq]; omega

theorem weightList_mem {e : Elem} {es : List Elem} (h : e ∈ es) : weight e ≤ weightList es := by
  induction es with
  | nil => cases h
  | cons x r ih =>
    rw [weightList]
    cases h with
    | head => omega
    | tail _ h => have := ih h; omega

theorem weightList_append (a b : List Elem) : weightList (a ++ b) = weightList a + weightList b := by
  induction a with
  | nil => simp [weightList]
  | cons x r ih => simp only [List.cons_append, weightList, ih]; omega

theorem weightList_set_le (es : List Elem) (i : Nat) (m : Elem) : weightList (es.set i m) ≤ weightList es + weight m := by
  induction es generalizing i with
  | nil => simp [weightList]
  | cons x r ih =>
    cases i with
    | zero => simp only [List.set_cons_zero, weightList]; omega
    | succ i => simp only [List.set_cons_succ, weightList]; have := ih i; omega

theorem weightList_eraseIdx_le (es : List Elem) (i : Nat) : weightList (es.eraseIdx i) ≤ weightList es := by
  induction es generalizing i with
  | nil => simp
  | cons x r ih =>
    cases i with
    | zero => simp only [List.eraseIdx_cons_zero, weightList]; omega
    | succ i => simp only [List.eraseIdx_cons_succ, weightList]; have := ih i; omega

theorem weightInfos_cons (k : Bytes) (e : Elem) (r : Infos) : weightInfos ((k, e) :: r) = weight e + weightInfos r := by
  rw [weightInfos, weightInfo]

theorem weightInfos_find {m : Infos} {k : Bytes} {e : Elem} (h : Infos.find m k = some e) : weight e ≤ weightInfos m := by
  induction m with
  | nil => simp [Infos.find] at h
  | cons p r ih =>
    obtain ⟨k', e'⟩ := p
    rw [weightInfos_cons]
    simp only [Infos.find, List.find?_cons] at h
    by_cases hk : k' = k
    · simp [hk] at h; subst h; omega
    · simp [hk] at h
      have := ih (by simpa [Infos.find] using h); omega

theorem weightInfos_set_le (m : Infos) (k : Bytes) (e : Elem) : weightInfos (Infos.set m k e) ≤ weightInfos m + weight e := by
  induction m with
  | nil => simp [Infos.set, weightInfos, weightInfo]
  | cons p r ih =>
    obtain ⟨k', e'⟩ := p
    simp only [Infos.set]
    split
    · rw [weightInfos_cons, weightInfos_cons]; omega
    · rw [weightInfos_cons, weightInfos_cons]; omega

/-- Replacing an entry that exists. -/
theorem weightInfos_set_find {m : Infos} {k : Bytes} {e e' : Elem} (h : Infos.find m k = some e) :
    weightInfos (Infos.set m k e') + weight e = weightInfos m + weight e' := by
  induction m with
  | nil => simp [Infos.find] at h
  | cons p r ih =>
    obtain ⟨k', x⟩ := p
    simp only [Infos.find, List.find?_cons] at h
    simp only [Infos.set]
    by_cases hk : k' = k
    · simp [hk] at h; subst h; rw [if_pos hk, weightInfos_cons, weightInfos_cons]; omega
    · simp [hk] at h
      rw [if_neg hk, weightInfos_cons, weightInfos_cons]
      have := ih (by simpa [Infos.find] using h); omega

theorem weightInfos_merge_le (skip : Bytes → Bool) (t s : Infos) :
    weightInfos (infoMerge skip t s) ≤ weightInfos t + weightInfos s := by
  unfold infoMerge
  induction s generalizing t with
  | nil => simp [weightInfos]
  | cons p r ih =>
    obtain ⟨k, e⟩ := p
    rw [List.foldl_cons, weightInfos_cons]
    dsimp only
    split
    · have := ih t; omega
    · have := ih (Infos.set t k e)
      have := weightInfos_set_le t k e
      omega

/-- The weight of what is not skipped. -/
theorem weightInfos_merge_filter (skip : Bytes → Bool) (t s : Infos) :
    weightInfos (infoMerge skip t s) ≤ weightInfos t + weightInfos (s.filter fun p => !skip p.1) := by
  unfold infoMerge
  induction s generalizing t with
  | nil => simp [weightInfos]
  | cons p r ih =>
    obtain ⟨k, e⟩ := p
    rw [List.foldl_cons, List.filter_cons]
    by_cases h : skip k
    · simp only [h, ↓reduceIte, Bool.not_true, Bool.false_eq_true]; exact ih t
    · simp only [h, ↓reduceIte, Bool.not_false, Bool.false_eq_true]
      rw [weightInfos_cons]
      have := ih (Infos.set t k e)
      have := weightInfos_set_le t k e
      omega

theorem weightInfos_find_filter {s : Infos} {k : Bytes} {e : Elem} (h : Infos.find s k = some e) :
    weight e + weightInfos (s.filter fun p => !(p.1 == k)) ≤ weightInfos s := by
  induction s with
  | nil => simp [Infos.find] at h
  | cons p r ih =>
    obtain ⟨k', x⟩ := p
    rw [weightInfos_cons, List.filter_cons]
    simp only [Infos.find, List.find?_cons] at h
    have hf : ∀ r : Infos, weightInfos (r.filter fun p => !(p.1 == k)) ≤ weightInfos r := by
      intro r
      induction r with
      | nil => simp
      | cons q r ih =>
        obtain ⟨a, b⟩ := q
        rw [List.filter_cons]
        split
        · rw [weightInfos_cons, weightInfos_cons]; omega
        · rw [weightInfos_cons]; omega
    by_cases hk : k' = k
    · simp [hk] at h; subst h; subst hk
      have := hf r
      simp; exact this
    · simp [hk] at h
      have := ih (by simpa [Infos.find] using h)
      have hk' : (k' == k) = false := by simpa using hk
      simp only [hk', Bool.not_false, ↓reduceIte]
      rw [weightInfos_cons]; omega

theorem objectPushBack_weight (es : List Elem) (m : Elem) : weightList (objectPushBack es m) ≤ weightList es + weight m := by
  unfold objectPushBack
  rw [weightList_append]
  have h1 : weightList [m] = weight m := by simp [weightList]
  rw [h1]
  split
  · exact Nat.le_refl _
  · split
    · split
      · have := weightList_eraseIdx_le es (objectFind es ‹_›); omega
      · exact Nat.le_refl _
    · exact Nat.le_refl _

theorem mergeElems_weight (ms : List Elem) : ∀ (es r : List Elem), mergeElems es ms = some r →
    weightList r ≤ weightList es + weightList ms := by
  induction ms with
  | nil => intro es r h; simp [mergeElems] at h; subst h; simp [weightList]
  | cons m ms ih =>
    intro es r h
    simp only [mergeElems, mergeStep] at h
    cases hf : findM (mergeMatch m) es with
    | none => simp [hf] at h
    | some i =>
      simp only [hf, Option.map_some, Option.bind_some] at h
      have := ih _ _ h
      rw [weightList]
      by_cases hi : i = es.length
      · rw [if_pos hi] at this
        have := objectPushBack_weight es m; omega
      · rw [if_neg hi] at this
        have := weightList_set_le es i m; omega

theorem weight_setData (e : Elem) (d : Data) : weight (e.setData d) = 1 + weightInfos e.attributes + weightData d := by
  cases e; rfl

theorem valueMerge_weight {t a r : Elem} (h : valueMerge t a = some r) :
    weight r ≤ weight t + weightData a.data := by
  have ht := weight_eq t
  unfold valueMerge at h
  split at h
  · rename_i es ms h1 h2
    split at h
    · simp at h; subst h; omega
    · cases hm : mergeElems (if t.has then es else []) ms with
      | none => simp [hm] at h
      | some q =>
        simp [hm] at h; subst h
        rw [weight_setData]
        have := mergeElems_weight _ _ _ hm
        rw [h1] at ht; rw [h2]
        simp only [weightData] at ht ⊢
        have : weightList (if t.has then es else []) ≤ weightList es := by
          split
          · exact Nat.le_refl _
          · simp [weightList]
        omega
  · rename_i es ms h1 h2
    split at h
    · simp at h; subst h
      rw [weight_setData, h2]; rw [h1] at ht
      simp only [weightData, weightList_append] at ht ⊢
      omega
    · simp at h; subst h; omega
  · simp at h; subst h
    rw [weight_setData]; omega

theorem mergeEnums_weight (as : List Elem) : ∀ (ts r : List Elem), mergeEnums ts as = some r →
    weightList r ≤ weightList ts + weightList as := by
  induction as with
  | nil => intro ts r h; simp [mergeEnums] at h; subst h; simp [weightList]
  | cons a as ih =>
    intro ts r h
    simp only [mergeEnums] at h
    cases hf : findM (fun t => eqElem a t) ts with
    | none => simp [hf] at h
    | some i =>
      simp only [hf, Option.bind_some] at h
      have := ih _ _ h
      rw [weightList_append] at this
      have h2 := weightList_eraseIdx_le ts i
      rw [weightList]
      simp only [weightList] at this
      omega

theorem enumerationsMerge_weight {t a r : Infos} (h : enumerationsMerge t a = some r) :
    (∀ x, Infos.find a (str "enumerations") = some x → weightInfos r ≤ weightInfos t + weight x) ∧
    (Infos.find a (str "enumerations") = none → weightInfos r ≤ weightInfos t) := by
  unfold enumerationsMerge at h
  split at h
  · rename_i hn
    simp at h; subst h
    exact ⟨fun x hx => by simp, fun _ => by simp⟩
  · rename_i x ha
    refine ⟨?_, fun hn => by rw [hn] at ha; cases ha⟩
    intro x' hx
    rw [ha] at hx; cases hx
    split at h
    · rename_i as has
      have hax := weight_eq x
      rw [has] at hax; simp only [weightData] at hax
      split at h
      · simp at h; subst h; simp
      · split at h
        · simp at h; subst h; exact weightInfos_set_le _ _ _
        · rename_i te hte
          split at h
          · rename_i n m at' hh ts
            cases hm : mergeEnums ts as with
            | none => simp [hm] at h
            | some q =>
              simp [hm] at h; subst h
              have h1 := weightInfos_set_find (e' := .mk n m at' hh (.array q)) hte
              have h2 := mergeEnums_weight _ _ _ hm
              simp only [weight, weightData] at h1
              omega
          · simp at h
    · simp at h

theorem elementMerge_weight {t a r : Elem} (h : elementMerge t a = some r) : weight r ≤ weight t + weight a := by
  have ht := weight_eq t
  have ha := weight_eq a
  have key : ∀ (m attrs : Infos) (r : Elem), weightInfos attrs ≤ weightInfos t.attributes + weightInfos a.attributes →
      (if a.has then valueMerge ((t.setMetas m).setAttributes attrs) a else some ((t.setMetas m).setAttributes attrs)) = some r →
      weight r ≤ weight t + weight a := by
    intro m attrs r hle h
    have hw : weight ((t.setMetas m).setAttributes attrs) = 1 + weightInfos attrs + weightData t.data := by
      cases t; rfl
    split at h
    · have := valueMerge_weight h; omega
    · simp at h; subst h; omega
  unfold elementMerge at h
  split at h
  · cases he : enumerationsMerge (infoMerge (· == str "enumerations") t.attributes a.attributes) a.attributes with
    | none => simp [he] at h
    | some attrs =>
      simp only [he, Option.bind_some] at h
      refine key _ _ _ ?_ h
      have h1 := enumerationsMerge_weight he
      have h2 := weightInfos_merge_filter (· == str "enumerations") t.attributes a.attributes
      have h3 := weightInfos_merge_le (· == str "enumerations") t.attributes a.attributes
      cases hx : Infos.find a.attributes (str "enumerations") with
      | none => have := h1.2 hx; omega
      | some x =>
        have := h1.1 x hx
        have := weightInfos_find_filter hx
        omega
  · exact key _ _ _ (weightInfos_merge_le _ _ _) h

theorem mergerLoop_weight (es : List Elem) : ∀ (t r : Elem), mergerLoop (some t) es = .ok (some r) →
    weight r ≤ weight t + weightList es := by
  induction es with
  | nil => intro t r h; simp [mergerLoop] at h; subst h; simp
  | cons e es ih =>
    intro t r h
    simp only [mergerLoop, mergerStep] at h
    rw [weightList]
    by_cases hk : e.kind = t.kind
    · simp only [hk, ne_eq, not_true, ↓reduceIte] at h
      by_cases hm : mergeable t.kind
      · simp only [hm, ↓reduceIte] at h
        cases he : elementMerge t e with
        | none => simp [he] at h
        | some q =>
          simp only [he] at h
          have := ih _ _ h
          have := elementMerge_weight he
          omega
      · simp [hm] at h
    · simp [hk] at h

/-- The result of a merge is not larger than the merged elements together. -/
theorem merge_weight {es : List Elem} {m : Elem} (h : merge es = .ok (some m)) : weight m ≤ weightList es := by
  unfold merge at h
  cases es with
  | nil => simp [mergerLoop] at h
  | cons e es =>
    simp only [mergerLoop, mergerStep] at h
    rw [weightList]
    exact mergerLoop_weight _ _ _ h

theorem mergeF_merge {es : List Elem} {m : Elem} (h : mergeF es = .ok m) : merge es = .ok (some m) := by
  unfold mergeF at h
  split at h <;> simp_all

theorem mergeF_weight {es : List Elem} {m : Elem} (h : mergeF es = .ok m) : weight m ≤ weightList es :=
  merge_weight (mergeF_merge h)

theorem mergeF_fuel (es : List Elem) : mergeF es ≠ .error .fuel := by
  unfold mergeF; split <;> simp

theorem noexceptF_ok {α} {x : Except Fault α} {a : α} (h : noexceptF x = .ok a) : x = .ok a := by
  unfold noexceptF at h; split at h <;> simp_all

theorem noexceptF_fuel {α} {x : Except Fault α} : noexceptF x = .error .fuel ↔ x = .error .fuel := by
  unfold noexceptF; split <;> simp_all

theorem weight_of_data {e : Elem} {d : Data} (h : e.data = d) : weight e = 1 + weightInfos e.attributes + weightData d := by
  rw [weight_eq, h]

theorem findDefault_weight {e x : Elem} (h : findDefault e = some x) : weight x < weight e := by
  have := weightInfos_find h
  have := weight_eq e; omega

theorem findFirstSample_weight {e x : Elem} (h : findFirstSample e = some x) : weight x < weight e := by
  unfold findFirstSample at h
  split at h
  · cases h
  · rename_i s hs
    have h1 := weightInfos_find hs
    have h2 := weight_eq e
    unfold asArray at h
    split at h
    · cases h
    · rename_i es hes
      split at hes
      · rename_i es' hd
        cases hes
        split at h
        · have := weightList_mem (List.mem_of_head? h)
          have := weight_of_data hd
          simp only [weightData] at this
          omega
        · cases h
      · cases hes

theorem resolve_weight {e x : Elem} (h : resolve e = .ok x) : weight x < weight e := by
  unfold resolve at h
  split at h
  · cases h
  · rename_i r hr
    cases h
    have := weightInfos_find hr
    have := weight_eq e; omega

theorem resolve_fuel (e : Elem) : resolve e ≠ .error .fuel := by
  unfold resolve; split <;> simp

/-- `inheritsFixed` never exceeds a bound of the weight of the element. -/
theorem inheritsFixedN_fuel (n : Nat) : ∀ e : Elem, weight e ≤ n → inheritsFixedN n e ≠ .error .fuel := by
  induction n with
  | zero => intro e h; have := weight_pos e; omega
  | succ n ih =>
    intro e h
    rw [inheritsFixedN]
    have hw := weight_eq e
    split <;> try simp
    · rename_i k v hd
      rw [hd] at hw; simp only [weightData] at hw
      split
      · simp
      · split
        · simp
        · cases v with
          | none => simp
          | some v => simp only [weightOpt] at hw; exact ih v (by omega)
    · rename_i v hd
      rw [hd] at hw; simp only [weightData] at hw
      split
      · simp
      · cases v with
        | none => simp
        | some v => simp only [weightOpt] at hw; exact ih v (by omega)
    · rename_i es hd
      rw [hd] at hw; simp only [weightData] at hw
      split
      · rename_i x hx
        intro he; cases he
        rw [noexceptF_fuel] at hx
        exact mergeF_fuel _ hx
      · rename_i m hm
        have := mergeF_weight (noexceptF_ok hm)
        exact ih m (by omega)

theorem inheritsFixed_fuel (e : Elem) : inheritsFixed e ≠ .error .fuel := inheritsFixedN_fuel _ e (Nat.le_refl _)

/-- `renderKey` never exceeds a bound of the weight of the element. -/
theorem renderKeyN_fuel (n : Nat) : ∀ e : Elem, weight e ≤ n → renderKeyN n e ≠ .error .fuel := by
  induction n with
  | zero => intro e h; have := weight_pos e; omega
  | succ n ih =>
    intro e h
    rw [renderKeyN]
    have hw := weight_eq e
    split
    · split
      · simp
      · split
        · rename_i x hx; have := findFirstSample_weight hx; exact ih x (by omega)
        · split
          · rename_i x hx; have := findDefault_weight hx; exact ih x (by omega)
          · simp
    · rename_i es hd
      rw [hd] at hw; simp only [weightData] at hw
      split
      · rename_i x hx
        intro he; cases he
        exact mergeF_fuel _ hx
      · rename_i m hm
        have := mergeF_weight hm
        exact ih m (by omega)
    · simp

theorem renderKey_fuel (e : Elem) : renderKey e ≠ .error .fuel := renderKeyN_fuel _ e (Nat.le_refl _)

end Verif.Refract
