import Verif.Proof.Element
import Verif.Spec.RefractApi
/-! Proofs about the conversion of the blueprint. -/
namespace Verif.RefractApi
open Verif Verif.Refract Verif.Spec

theorem bind_ok {α β : Type} {x : R α} {f : α → R β} {b : β} : x.bind f = .ok b ↔ ∃ a, x = .ok a ∧ f a = .ok b := by
  cases x with
  | error e => simp [Except.bind]
  | ok a => simp [Except.bind]

theorem bind_assoc {α β γ : Type} (x : R α) (f : α → R β) (g : β → R γ) : (x.bind f).bind g = x.bind fun a => (f a).bind g := by
  cases x <;> rfl

theorem mapR_append {α β : Type} (f : α → R β) (a b : List α) :
    mapR f (a ++ b) = (mapR f a).bind fun x => (mapR f b).bind fun y => .ok (x ++ y) := by
  induction a with
  | nil => simp only [List.nil_append, mapR, Except.bind]; cases mapR f b <;> rfl
  | cons c a ih =>
    simp only [List.cons_append, mapR, ih, bind_assoc]
    cases f c with
    | error e => rfl
    | ok x =>
      simp only [Except.bind]
      cases mapR f a with
      | error e => rfl
      | ok y => simp only [Except.bind]; cases mapR f b <;> rfl

theorem mapR_map {α β γ : Type} (f : β → R γ) (g : α → β) (l : List α) : mapR f (l.map g) = mapR (fun a => f (g a)) l := by
  induction l with
  | nil => rfl
  | cons a l ih => simp only [List.map_cons, mapR, ih]

theorem mapR_flatMap {α β γ : Type} (f : β → R γ) (g : α → List β) (l : List α) :
    (mapR (fun a => mapR f (g a)) l).bind (fun x => .ok x.flatten) = mapR f (l.flatMap g) := by
  induction l with
  | nil => rfl
  | cons a l ih =>
    rw [List.flatMap_cons, mapR_append, ← ih]
    simp only [mapR, bind_assoc]
    cases mapR f (g a) with
    | error e => rfl
    | ok x =>
      simp only [Except.bind]
      cases mapR (fun a => mapR f (g a)) l with
      | error e => rfl
      | ok y => simp

theorem mapR_ok {α β : Type} {f : α → R β} : ∀ {l : List α} {r : List β}, mapR f l = .ok r ↔ List.Forall₂ (fun a b => f a = .ok b) l r
  | [], r => by
    simp only [mapR, List.forall₂_nil_left_iff]
    exact ⟨fun h => by cases h; rfl, fun h => by rw [h]⟩
  | a :: l, r => by
    rw [mapR, bind_ok]
    simp only [bind_ok, List.forall₂_cons_left_iff]
    constructor
    · rintro ⟨b, h1, bs, h2, h3⟩
      cases h3
      exact ⟨b, bs, h1, mapR_ok.1 h2, rfl⟩
    · rintro ⟨b, bs, h1, h2, rfl⟩
      exact ⟨b, h1, bs, mapR_ok.2 h2, rfl⟩

theorem mapR_total {α β : Type} {f : α → R β} : ∀ {l : List α}, (∀ a ∈ l, ∃ b, f a = .ok b) → ∃ r, mapR f l = .ok r
  | [], _ => ⟨[], rfl⟩
  | a :: l, h => by
    obtain ⟨b, hb⟩ := h a (by simp)
    obtain ⟨bs, hbs⟩ := mapR_total (l := l) (fun x hx => h x (by simp [hx]))
    exact ⟨b :: bs, by rw [mapR, hb]; simp only [Except.bind]; rw [hbs]⟩

theorem mapR_single {α β : Type} (f : α → R β) : ∀ l : List α,
    (mapR (fun a => (f a).bind fun b => Except.ok [b]) l).bind (fun x => (.ok x.flatten : R (List β))) = mapR f l
  | [] => rfl
  | a :: l => by
    have ih := mapR_single f l
    rw [mapR, mapR, ← ih]
    cases f a with
    | error e => rfl
    | ok b =>
      generalize mapR _ l = z
      cases z <;> simp [Except.bind]

/-- The transactions of an example, pair by pair. -/
theorem example_pairs {δ : Type} (env : Env δ) (a : Action δ) (x : Example δ) :
    exampleTransactions env a x = mapR (fun p => transactionToRefract env x (some a) p.1 p.2) (pairsOf x) := by
  unfold exampleTransactions pairsOf
  cases hq : x.requests with
  | nil =>
    cases hr : x.responses with
    | nil => rfl
    | cons r rs =>
      simp only [List.isEmpty_nil, List.isEmpty_cons, Bool.not_false, Bool.and_self, if_true, mapR_map]
      generalize mapR _ (r :: rs) = l
      cases l <;> simp [Except.bind, mapR]
  | cons q qs =>
    cases hr : x.responses with
    | nil =>
      simp only [List.isEmpty_cons, List.isEmpty_nil, Bool.false_and, mapR_map, if_true, mapR]
      have e := mapR_single (fun q => transactionToRefract env x (some a) (some q) none) (q :: qs)
      simp only [mapR] at e
      rw [← e]
      have hf : (fun q => ((transactionToRefract env x (some a) (some q) none).bind fun t => (Except.ok [t] : R (List Elem))).bind
          fun single => (Except.ok [] : R (List Elem)).bind fun ts => .ok (single ++ ts)) =
          fun q => (transactionToRefract env x (some a) (some q) none).bind fun t => Except.ok [t] := by
        funext q
        cases transactionToRefract env x (some a) (some q) none <;> rfl
      have hq : (((transactionToRefract env x (some a) (some q) none).bind fun t => (Except.ok [t] : R (List Elem))).bind
          fun single => (Except.ok [] : R (List Elem)).bind fun ts => .ok (single ++ ts)) =
          (transactionToRefract env x (some a) (some q) none).bind fun t => Except.ok [t] := congrFun hf q
      rw [hf, hq]
      generalize ((transactionToRefract env x (some a) (some q) none).bind fun t => (Except.ok [t] : R (List Elem))).bind _ = z
      cases z <;> simp [Except.bind]
    | cons r rs =>
      simp only [List.isEmpty_cons, Bool.false_and, Bool.false_eq_true, if_false]
      have e := mapR_flatMap (fun p => transactionToRefract env x (some a) p.1 p.2) (fun q => (r :: rs).map fun r => (some q, some r)) (q :: qs)
      rw [← e]
      simp only [mapR_map, Except.bind, List.nil_append]
      congr 1
      congr 1
      funext q
      generalize mapR _ (r :: rs) = z
      cases z <;> rfl

theorem copy_spec (d : Bytes) :
    (if d = [] then (copyToRefract d).toList = [] else ∃ c, (copyToRefract d).toList = [c] ∧ c.name = str "copy" ∧ textOf c = some d) := by
  cases d with
  | nil => simp [copyToRefract]
  | cons c d => simp [copyToRefract, Elem.setName, strE, makeElement, Elem.name, textOf, Elem.data]

theorem transaction_spec {δ : Type} {env : Env δ} {a : Action δ} {p : Example δ × Option (Payload δ) × Option (Payload δ)} {t : Elem}
    (h : transactionToRefract env p.1 (some a) p.2.1 p.2.2 = .ok t) : IsTransaction env a p t := by
  unfold transactionToRefract at h
  simp only [bind_ok] at h
  obtain ⟨q, hq, r, hr, h⟩ := h
  cases h
  exact ⟨rfl, _, q, r, rfl, copy_spec _, hq, hr⟩

theorem childrenE_setData (e : Elem) (l : List Elem) : childrenE (e.setData (.array l)) = l := by cases e; rfl

theorem forall₂_pairs {δ : Type} {env : Env δ} {a : Action δ} {l : List (Example δ × Option (Payload δ) × Option (Payload δ))} {r : List Elem}
    (h : List.Forall₂ (fun p t => transactionToRefract env p.1 (some a) p.2.1 p.2.2 = .ok t) l r) : List.Forall₂ (IsTransaction env a) l r :=
  h.imp fun _ _ => transaction_spec

theorem examples_eq {δ : Type} (env : Env δ) (a : Action δ) (xs : List (Example δ)) :
    (mapR (exampleTransactions env a) xs).bind (fun l => .ok l.flatten) =
      mapR (fun p : Example δ × Option (Payload δ) × Option (Payload δ) => transactionToRefract env p.1 (some a) p.2.1 p.2.2) (xs.flatMap fun x => (pairsOf x).map fun p => (x, p)) := by
  rw [← mapR_flatMap]
  congr 1
  congr 1
  funext x
  rw [example_pairs, mapR_map]

theorem action_spec {δ : Type} {env : Env δ} {a : Action δ} {e : Elem} (h : actionToRefract env a = .ok e) :
    ∃ ts, childrenE e = (copyToRefract a.description).toList ++ ts ∧
      List.Forall₂ (IsTransaction env a) (a.examples.flatMap fun x => (pairsOf x).map fun p => (x, p)) ts := by
  unfold actionToRefract at h
  simp only [bind_ok] at h
  obtain ⟨e', _, l, hl, h⟩ := h
  cases h
  refine ⟨l.flatten, childrenE_setData _ _, forall₂_pairs (mapR_ok.1 ?_)⟩
  rw [← examples_eq, hl]; rfl

theorem firstHeader_iff {k : Bytes} : ∀ {l : List (Bytes × Bytes)} {v : Bytes},
    FirstHeader k l v ↔ (match l.find? fun h => h.1 = k with | some h => h.2 | none => []) = v
  | [], v => ⟨fun h => by cases h; rfl, fun h => by cases h; exact .none⟩
  | h :: l, v => by
    by_cases e : h.1 = k
    · simp only [List.find?_cons, e, decide_true]
      constructor
      · intro x
        cases x with
        | here => rfl
        | skip hn _ => exact absurd e hn
      · rintro rfl
        obtain ⟨h1, h2⟩ := h
        simp at e; subst e
        exact .here
    · simp only [List.find?_cons, e, decide_false]
      rw [← firstHeader_iff (l := l)]
      constructor
      · intro x
        cases x with
        | here => exact absurd rfl e
        | skip _ hx => exact hx
      · exact .skip e

theorem firstHeader_contentType {l : List (Bytes × Bytes)} {v : Bytes} : FirstHeader (str "Content-Type") l v ↔ contentTypeOf l = v := by
  rw [firstHeader_iff]; rfl

theorem isJson_iff {δ : Type} {p : Payload δ} : IsJsonPayload p ↔ MediaType.isJSON (MediaType.parseMediaType (contentTypeOf p.headers)) = true := by
  constructor
  · rintro ⟨v, h1, h2⟩; rw [firstHeader_contentType] at h1; rw [h1]; exact h2
  · intro h; exact ⟨_, firstHeader_contentType.2 rfl, h⟩

theorem structure_iff {δ : Type} {env : Env δ} {p : Payload δ} {a : Option (Action δ)} {ds x : Option Elem}
    (h1 : payloadStructure env p = .ok ds) (h2 : generationStructure env ds a = .ok x) :
    ∀ e, StructureOf env p a e ↔ x = some e := by
  unfold payloadStructure at h1
  unfold generationStructure at h2
  simp only [bind_ok] at h2
  obtain ⟨y, hy, hx⟩ := h2
  intro e
  cases ds with
  | some d =>
    cases hy
    simp only [bind_ok] at hx
    obtain ⟨d', hd, hx⟩ := hx
    cases hx
    have hne : env.isEmpty p.attributes = false := by
      cases he : env.isEmpty p.attributes with
      | false => rfl
      | true => rw [he] at h1; cases h1
    rw [hne] at h1
    simp only [Bool.false_eq_true, if_false] at h1
    constructor
    · intro h
      cases h with
      | own _ hm he => rw [h1] at hm; cases hm; rw [hd] at he; cases he; rfl
      | inherited hm =>
        rcases hm with hm | hm
        · rw [hne] at hm; cases hm
        · rw [h1] at hm; cases hm
    · intro h; cases h; exact .own hne h1 hd
  | none =>
    have hnone : env.isEmpty p.attributes = true ∨ env.mson p.attributes = .ok none := by
      split at h1
      · left; assumption
      · right; exact h1
    have hown : ∀ {d}, env.isEmpty p.attributes = false → env.mson p.attributes = .ok (some d) → False := by
      intro d h3 h4
      rcases hnone with h | h
      · rw [h] at h3; cases h3
      · rw [h] at h4; cases h4
    cases a with
    | none =>
      cases hy; cases hx
      constructor
      · intro h
        cases h with
        | own h3 h4 => exact (hown h3 h4).elim
        | inherited _ h => cases h
      · intro h; cases h
    | some b =>
      simp only at hy
      split at hy
      · rename_i he
        cases hy; cases hx
        constructor
        · intro h
          cases h with
          | own h3 h4 => exact (hown h3 h4).elim
          | inherited _ hb he' => cases hb; rw [he] at he'; cases he'
        · intro h; cases h
      · rename_i he
        cases y with
        | none =>
          cases hx
          constructor
          · intro h
            cases h with
            | own h3 h4 => exact (hown h3 h4).elim
            | inherited _ hb he' hm => cases hb; rw [hy] at hm; cases hm
          · intro h; cases h
        | some d =>
          simp only [bind_ok] at hx
          obtain ⟨d', hd, hx⟩ := hx
          cases hx
          constructor
          · intro h
            cases h with
            | own h3 h4 => exact (hown h3 h4).elim
            | inherited _ hb he' hm hx => cases hb; rw [hy] at hm; cases hm; rw [hd] at hx; cases hx; rfl
          · intro h; cases h; exact .inherited hnone rfl (by simpa using he) hy hd

theorem find_set_self (m : Infos) (k : Bytes) (e : Elem) : Infos.find (Infos.set m k e) k = some e := by
  rw [Infos.find_set]; simp

theorem classes_asset {c k t : Bytes} (h : k ≠ []) : classesE (assetE c k t) = [k] := by
  have : k.isEmpty = false := by cases k <;> simp_all
  unfold assetE
  simp only [this, Bool.false_eq_true, if_false]
  cases t <;> rfl

theorem text_asset {c k t : Bytes} : textOf (assetE c k t) = some c := by
  unfold assetE; dsimp only
  split <;> split <;> rfl

theorem name_asset {c k t : Bytes} : (assetE c k t).name = str "asset" := by
  unfold assetE; dsimp only
  split <;> split <;> rfl

theorem contentType_asset {c k t : Bytes} : attrText (assetE c k t) (str "contentType") = if t = [] then none else some t := by
  unfold assetE; dsimp only
  cases t <;> cases k <;> rfl

theorem classes_structure (d : Elem) : classesE (dataStructureE d) = [] := rfl
theorem classes_copy (s : Bytes) : ∀ c ∈ (copyToRefract s).toList, classesE c = [] := by
  intro c hc
  unfold copyToRefract at hc
  split at hc
  · cases hc
  · simp at hc; subst hc; rfl

theorem pushed_classes {δ : Type} {env : Env δ} {ds : Option Elem} {l : List Elem} (h : pushedStructure env ds = .ok l) : ∀ c ∈ l, classesE c = [] := by
  unfold pushedStructure at h
  split at h
  · cases h; simp
  · split at h
    · simp only [bind_ok] at h
      obtain ⟨e, _, h⟩ := h
      cases h; intro c hc; simp at hc; subst hc; rfl
    · cases h; intro c hc; simp at hc; subst hc; rfl

theorem filter_none {l : List Elem} {k : Bytes} (h : ∀ c ∈ l, k ∉ classesE c) : (l.filter fun c => k ∈ classesE c) = [] := by
  rw [List.filter_eq_nil_iff]; intro c hc; simpa using h c hc

theorem filter_all {l : List Elem} {k : Bytes} (h : ∀ c ∈ l, k ∈ classesE c) : (l.filter fun c => k ∈ classesE c) = l := by
  rw [List.filter_eq_self]; intro c hc; simpa using h c hc

theorem body_classes {δ : Type} {env : Env δ} {p : Payload δ} {t : MediaType.MediaType} {x : Option Elem} {l : List Elem}
    (h : bodyAssets env p t x = .ok l) : ∀ c ∈ l, classesE c = [str "messageBody"] := by
  have hb : str "messageBody" ≠ [] := by decide
  unfold bodyAssets generateValueAsset at h
  split at h
  · split at h
    · split at h
      · cases h; simp
      · split at h
        · simp only [bind_ok] at h
          obtain ⟨v, _, h⟩ := h
          cases h; intro c hc; simp at hc; subst hc; exact classes_asset hb
        · cases h; simp
    · cases h; simp
  · cases h; intro c hc; simp at hc; subst hc; exact classes_asset hb

theorem schema_classes {δ : Type} {env : Env δ} {p : Payload δ} {t : MediaType.MediaType} {x : Option Elem} {l : List Elem}
    (h : schemaAssets env p t x = .ok l) : ∀ c ∈ l, classesE c = [str "messageBodySchema"] := by
  have hb : str "messageBodySchema" ≠ [] := by decide
  unfold schemaAssets generateSchemaAsset at h
  split at h
  · split at h
    · split at h
      · cases h; simp
      · split at h
        · simp only [bind_ok] at h
          obtain ⟨v, _, h⟩ := h
          cases h; intro c hc; simp at hc; subst hc; exact classes_asset hb
        · cases h; simp
    · cases h; simp
  · cases h; intro c hc; simp at hc; subst hc; exact classes_asset hb

/-- The parts of a payload's element. -/
theorem payload_parts {δ : Type} {env : Env δ} {p : Payload δ} {a : Option (Action δ)} {e : Elem} (h : payloadToRefract env (some p) a = .ok e) :
    ∃ x, (∀ d, StructureOf env p a d ↔ x = some d) ∧
      bodyAssets env p (MediaType.parseMediaType (contentTypeOf p.headers)) x = .ok (assetsE (str "messageBody") e) ∧
      schemaAssets env p (MediaType.parseMediaType (contentTypeOf p.headers)) x = .ok (assetsE (str "messageBodySchema") e) := by
  unfold payloadToRefract at h
  simp only [bind_ok] at h
  obtain ⟨ds, h1, pushed, h2, x, h3, body, h4, schema, h5, h⟩ := h
  cases h
  have n1 : ∀ k, ((copyToRefract p.description).toList.filter fun c => k ∈ classesE c) = [] := fun k =>
    filter_none fun c hc => by rw [classes_copy _ c hc]; simp
  have n2 : ∀ k, (pushed.filter fun c => k ∈ classesE c) = [] := fun k =>
    filter_none fun c hc => by rw [pushed_classes h2 c hc]; simp
  refine ⟨x, structure_iff h1 h3, ?_, ?_⟩
  · rw [h4]
    unfold assetsE
    rw [childrenE_setData, List.filter_append, List.filter_append, List.filter_append, n1, n2,
      filter_all fun c hc => by rw [body_classes h4 c hc]; simp,
      filter_none fun c hc => by rw [schema_classes h5 c hc]; decide]
    simp
  · rw [h5]
    unfold assetsE
    rw [childrenE_setData, List.filter_append, List.filter_append, List.filter_append, n1, n2,
      filter_none fun c hc => by rw [body_classes h4 c hc]; decide,
      filter_all fun c hc => by rw [schema_classes h5 c hc]; simp]
    simp

end Verif.RefractApi

namespace Verif.RefractApi
open Verif Verif.Refract Verif.Spec

theorem payload_head {δ : Type} {env : Env δ} {p : Option (Payload δ)} {a : Option (Action δ)} {e : Elem} (h : payloadToRefract env p a = .ok e) :
    e.name = (payloadHead p a).name ∧ e.metas = (payloadHead p a).metas ∧ e.attributes = (payloadHead p a).attributes := by
  unfold payloadToRefract at h
  cases p with
  | none => cases h; exact ⟨rfl, rfl, rfl⟩
  | some p =>
    simp only [bind_ok] at h
    obtain ⟨_, _, _, _, _, _, _, _, _, _, h⟩ := h
    cases h
    cases payloadHead (some p) a
    exact ⟨rfl, rfl, rfl⟩

@[simp] theorem name_setAttr (k : Bytes) (v e : Elem) : (setAttr k v e).name = e.name := by cases e; rfl
@[simp] theorem metas_setAttr (k : Bytes) (v e : Elem) : (setAttr k v e).metas = e.metas := by cases e; rfl
@[simp] theorem attributes_setAttr (k : Bytes) (v e : Elem) : (setAttr k v e).attributes = Infos.set e.attributes k v := by cases e; rfl
@[simp] theorem name_setMeta (k : Bytes) (v e : Elem) : (setMeta k v e).name = e.name := by cases e; rfl
@[simp] theorem attributes_setMeta (k : Bytes) (v e : Elem) : (setMeta k v e).attributes = e.attributes := by cases e; rfl
@[simp] theorem metas_setMeta (k : Bytes) (v e : Elem) : (setMeta k v e).metas = Infos.set e.metas k v := by cases e; rfl
@[simp] theorem name_arrayE (n : Bytes) (l : List Elem) : (arrayE n l).name = n := rfl
@[simp] theorem metas_arrayE (n : Bytes) (l : List Elem) : (arrayE n l).metas = [] := rfl
@[simp] theorem attributes_arrayE (n : Bytes) (l : List Elem) : (arrayE n l).attributes = [] := rfl
@[simp] theorem textOf_strE (s : Bytes) : textOf (strE s) = some s := rfl

/-- The parameters and headers of a payload do not touch its name, its meta values and the other attributes. -/
theorem decorated {δ : Type} (p : Payload δ) (e : Elem) :
    let d := (let e := if p.parameters.isEmpty then e else setAttr (str "hrefVariables") (parametersToRefract p.parameters) e
      if p.headers.isEmpty then e else setAttr (str "headers") (arrayE (str "httpHeaders") (p.headers.map headerToRefract)) e)
    d.name = e.name ∧ d.metas = e.metas ∧
      ∀ k, k ≠ str "hrefVariables" → k ≠ str "headers" → Infos.find d.attributes k = Infos.find e.attributes k := by
  dsimp only
  split <;> split <;> simp only [name_setAttr, metas_setAttr, attributes_setAttr, true_and] <;> intro k h1 h2 <;>
    simp only [Infos.find_set, h1, h2, if_false]

theorem request_head {δ : Type} (p : Option (Payload δ)) (a : Action δ) (h : a.method ≠ []) :
    (payloadHead p (some a)).name = str "httpRequest" ∧
    Infos.find (payloadHead p (some a)).attributes (str "method") = some (strE a.method) ∧
    Infos.find (payloadHead p (some a)).metas (str "title") = p.bind fun q => if q.name = [] then none else some (strE q.name) := by
  have hm : isRequest (some a) = true := by
    unfold isRequest; cases hm : a.method <;> simp_all
  unfold payloadHead
  simp only [hm, if_true]
  cases p with
  | none => exact ⟨rfl, rfl, rfl⟩
  | some p =>
    obtain ⟨h1, h2, h3⟩ := decorated p (if p.name.isEmpty then setAttr (str "method") (strE a.method) (arrayE (str "httpRequest") [])
      else setMeta (str "title") (strE p.name) (setAttr (str "method") (strE a.method) (arrayE (str "httpRequest") [])))
    have h3' := h3 (str "method") (by decide) (by decide)
    refine ⟨h1.trans ?_, h3'.trans ?_, ?_⟩
    · split <;> rfl
    · split <;> rfl
    · dsimp only [Option.bind]
      refine (congrArg (fun m => Infos.find m (str "title")) h2).trans ?_
      cases p.name <;> rfl

theorem response_head {δ : Type} (p : Option (Payload δ)) :
    (payloadHead p (none : Option (Action δ))).name = str "httpResponse" ∧
    Infos.find (payloadHead p (none : Option (Action δ))).attributes (str "statusCode") = p.map fun q => strE q.name := by
  unfold payloadHead
  cases p with
  | none => exact ⟨rfl, rfl⟩
  | some p =>
    obtain ⟨h1, h2, h3⟩ := decorated p (setAttr (str "statusCode") (strE p.name) (arrayE (str "httpResponse") []))
    have h3' := h3 (str "statusCode") (by decide) (by decide)
    exact ⟨h1, h3'⟩

theorem action_total {δ : Type} (env : Env δ) (a : Action δ) (h : ∃ d, dataStructureToRefract env a.attributes = .ok d)
    (hp : ∀ x ∈ a.examples, (∀ p ∈ pairsOf x, (∃ q, payloadToRefract env p.1 (some a) = .ok q) ∧ ∃ r, payloadToRefract env p.2 none = .ok r)) :
    ∃ e, actionToRefract env a = .ok e := by
  have h2 : ∃ l, mapR (exampleTransactions env a) a.examples = .ok l := by
    apply mapR_total
    intro x hx
    rw [example_pairs]
    apply mapR_total
    intro p hp'
    obtain ⟨⟨q, hq⟩, r, hr⟩ := hp x hx p hp'
    unfold transactionToRefract
    rw [hq]
    simp only [Except.bind]
    rw [hr]
    exact ⟨_, rfl⟩
  obtain ⟨l, hl⟩ := h2
  obtain ⟨d, hd⟩ := h
  unfold actionToRefract
  simp only [hl, hd]
  cases env.isEmpty a.attributes <;> cases d <;> exact ⟨_, rfl⟩

end Verif.RefractApi

namespace Verif.RefractApi
open Verif Verif.Refract Verif.Spec

@[simp] theorem name_setData (e : Elem) (d : Data) : (e.setData d).name = e.name := by cases e; rfl
@[simp] theorem metas_setData (e : Elem) (d : Data) : (e.setData d).metas = e.metas := by cases e; rfl
@[simp] theorem attributes_setData (e : Elem) (d : Data) : (e.setData d).attributes = e.attributes := by cases e; rfl

theorem shows_action {δ : Type} {env : Env δ} {a : Action δ} {t : Elem} (h : actionToRefract env a = .ok t) : ShowsAction env a t := by
  have h0 := h
  unfold actionToRefract at h
  simp only [bind_ok] at h
  obtain ⟨e, h1, l, _, h2⟩ := h
  cases h2
  generalize hb : (if a.parameters.isEmpty = true then
      if a.uriTemplate.isEmpty = true then
        if a.relation.isEmpty = true then setMeta (str "title") (strE a.name) (arrayE (str "transition") [])
        else setAttr (str "relation") (strE a.relation) (setMeta (str "title") (strE a.name) (arrayE (str "transition") []))
      else setAttr (str "href") (strE a.uriTemplate)
        (if a.relation.isEmpty = true then setMeta (str "title") (strE a.name) (arrayE (str "transition") [])
        else setAttr (str "relation") (strE a.relation) (setMeta (str "title") (strE a.name) (arrayE (str "transition") [])))
    else setAttr (str "hrefVariables") (parametersToRefract a.parameters)
      (if a.uriTemplate.isEmpty = true then
        if a.relation.isEmpty = true then setMeta (str "title") (strE a.name) (arrayE (str "transition") [])
        else setAttr (str "relation") (strE a.relation) (setMeta (str "title") (strE a.name) (arrayE (str "transition") []))
      else setAttr (str "href") (strE a.uriTemplate)
        (if a.relation.isEmpty = true then setMeta (str "title") (strE a.name) (arrayE (str "transition") [])
        else setAttr (str "relation") (strE a.relation) (setMeta (str "title") (strE a.name) (arrayE (str "transition") []))))) = base at h1
  have hbase : base.name = str "transition" ∧ metaText base (str "title") = some a.name ∧
      (a.uriTemplate ≠ [] → attrText base (str "href") = some a.uriTemplate) := by
    rw [← hb]
    refine ⟨?_, ?_, ?_⟩
    · split <;> split <;> split <;> rfl
    · split <;> split <;> split <;> rfl
    · intro hu
      have : a.uriTemplate.isEmpty = false := by cases h : a.uriTemplate <;> simp_all
      simp only [this, Bool.false_eq_true, if_false]
      split <;> split <;> rfl
  have he : e.name = base.name ∧ metaText e (str "title") = metaText base (str "title") ∧ attrText e (str "href") = attrText base (str "href") := by
    split at h1
    · cases h1; exact ⟨rfl, rfl, rfl⟩
    · obtain ⟨d, _, h1⟩ := bind_ok.1 h1
      split at h1
      · cases h1
        refine ⟨by simp, by simp [metaText], ?_⟩
        simp only [attrText, attributes_setAttr, Infos.find_set]
        rw [if_neg (by decide)]
      · cases h1; exact ⟨rfl, rfl, rfl⟩
  refine ⟨?_, ?_, ?_, h0⟩
  · rw [name_setData, he.1]; exact hbase.1
  · rw [metaText, metas_setData]; exact he.2.1.trans hbase.2.1
  · intro hu
    rw [attrText, attributes_setData]; exact he.2.2.trans (hbase.2.2 hu)

theorem dataStructure_name {δ : Type} {env : Env δ} {d : δ} {x : Option Elem} (h : dataStructureToRefract env d = .ok x) :
    ∀ e ∈ x.toList, e.name = str "dataStructure" := by
  unfold dataStructureToRefract at h
  obtain ⟨m, _, h⟩ := bind_ok.1 h
  cases m with
  | none => cases h; simp
  | some m =>
    dsimp only at h
    split at h
    · obtain ⟨e, _, h⟩ := bind_ok.1 h
      cases h; simp [dataStructureE, Elem.name]
    · cases h; simp [dataStructureE, Elem.name]

theorem copy_name (s : Bytes) : ∀ e ∈ (copyToRefract s).toList, e.name = str "copy" := by
  unfold copyToRefract
  split
  · simp
  · simp [Elem.setName, Elem.name, strE, makeElement]

theorem filter_names_none {l : List Elem} {n k : Bytes} (h : ∀ e ∈ l, e.name = n) (hk : n ≠ k) : (l.filter fun c => c.name = k) = [] := by
  rw [List.filter_eq_nil_iff]; intro c hc; rw [h c hc]; simpa using hk

theorem shows_resource {δ : Type} {env : Env δ} {r : Resource δ} {e : Elem} (h : resourceToRefract env r = .ok e) : ShowsResource env r e := by
  unfold resourceToRefract at h
  simp only [bind_ok] at h
  obtain ⟨d, hd, l, hl, h⟩ := h
  cases h
  have hd' : ∀ e ∈ d.toList, e.name = str "dataStructure" := by
    split at hd
    · cases hd; simp
    · exact dataStructure_name hd
  refine ⟨?_, ?_, ?_, ?_⟩
  · rw [name_setData]; split <;> rfl
  · rw [metaText, metas_setData]; split <;> rfl
  · rw [attrText, attributes_setData]; split <;> rfl
  · rw [childrenE_setData, List.filter_append, List.filter_append, filter_names_none (copy_name _) (by decide), filter_names_none hd' (by decide)]
    have hl := mapR_ok.1 hl
    have hall : List.Forall₂ (ShowsAction env) r.actions l := hl.imp fun _ _ => shows_action
    have : (l.filter fun c => c.name = str "transition") = l := by
      rw [List.filter_eq_self]
      intro c hc
      have : ∀ {as : List (Action δ)} {l : List Elem}, List.Forall₂ (ShowsAction env) as l → ∀ c ∈ l, c.name = str "transition" := by
        intro as l h
        induction h with
        | nil => simp
        | cons h1 _ ih => intro c hc; rcases List.mem_cons.1 hc with rfl | hc; exacts [h1.1, ih c hc]
      simpa using this hall c hc
    rw [this]; simpa using hall

theorem resourceElemsL_append : ∀ a b : List Elem, resourceElemsL (a ++ b) = resourceElemsL a ++ resourceElemsL b
  | [], b => by rw [resourceElemsL]; rfl
  | e :: a, b => by rw [List.cons_append, resourceElemsL, resourceElemsL, resourceElemsL_append a b, List.append_assoc]

theorem resourceElems_other {e : Elem} (h1 : e.name ≠ str "resource") (h2 : e.name ≠ str "category") : resourceElems e = [] := by
  cases e
  rw [resourceElems]
  simp only [Elem.name] at h1 h2
  rw [if_neg h1, if_neg h2]

theorem resourceElems_resource {e : Elem} (h1 : e.name = str "resource") : resourceElems e = [e] := by
  cases e
  simp only [Elem.name] at h1
  rw [resourceElems, if_pos h1]

theorem resourceElems_category {e : Elem} {l : List Elem} (h1 : e.name = str "category") (h2 : e.data = .array l) : resourceElems e = resourceElemsL l := by
  cases e
  simp only [Elem.name, Elem.data] at h1 h2
  subst h1 h2
  rw [resourceElems, if_neg (by decide), if_pos rfl, resourceElemsD]

theorem resourceElemsL_names {n : Bytes} (h1 : n ≠ str "resource") (h2 : n ≠ str "category") : ∀ {l : List Elem}, (∀ e ∈ l, e.name = n) → resourceElemsL l = []
  | [], _ => by rw [resourceElemsL]
  | e :: l, h => by
    rw [resourceElemsL, resourceElems_other (by rw [h e (by simp)]; exact h1) (by rw [h e (by simp)]; exact h2),
      resourceElemsL_names h1 h2 (fun x hx => h x (by simp [hx]))]; rfl

mutual
theorem element_resources {δ : Type} (env : Env δ) : (x : Element δ) → ∀ {o : Option Elem}, elementToRefract env x = .ok o →
    List.Forall₂ (ShowsResource env) (resourcesOf x) (resourceElemsL o.toList)
  | .copy s, o, h => by
    rw [elementToRefract] at h; cases h
    rw [resourceElemsL_names (by decide) (by decide) (copy_name s)]
    rw [resourcesOf]
    · exact .nil
    · intro r h; cases h
    · intro c n es h; cases h
  | .resource r, o, h => by
    rw [elementToRefract] at h
    obtain ⟨e, h1, h2⟩ := bind_ok.1 h
    cases h2
    have := shows_resource h1
    rw [resourcesOf, Option.toList, resourceElemsL, resourceElems_resource this.1, resourceElemsL]
    exact .cons this .nil
  | .dataStructure d, o, h => by
    rw [elementToRefract] at h
    rw [resourceElemsL_names (by decide) (by decide) (dataStructure_name h)]
    rw [resourcesOf]
    · exact .nil
    · intro r h; cases h
    · intro c n es h; cases h
  | .category c n es, o, h => by
    rw [elementToRefract] at h
    obtain ⟨l, h1, h2⟩ := bind_ok.1 h
    cases h2
    have ih := elements_resources env es h1
    rw [resourcesOf, Option.toList, resourceElemsL, resourceElemsL, List.append_nil, resourceElems_category (l := l)]
    · exact ih
    · cases c <;> rfl
    · cases c <;> rfl
  | .other, o, h => by rw [elementToRefract] at h; cases h
termination_by structural x => x
theorem elements_resources {δ : Type} (env : Env δ) : (xs : List (Element δ)) → ∀ {l : List Elem}, elementsToRefract env xs = .ok l →
    List.Forall₂ (ShowsResource env) (resourcesOfList xs) (resourceElemsL l)
  | [], l, h => by
    rw [elementsToRefract] at h; cases h
    rw [resourcesOfList, resourceElemsL]; exact .nil
  | x :: xs, l, h => by
    rw [elementsToRefract] at h
    obtain ⟨o, h1, h⟩ := bind_ok.1 h
    obtain ⟨es, h2, h⟩ := bind_ok.1 h
    cases h
    rw [resourcesOfList, resourceElemsL_append]
    exact List.rel_append (element_resources env x h1) (elements_resources env xs h2)
termination_by structural xs => xs
end

theorem blueprint_resources {δ : Type} {env : Env δ} {b : Blueprint δ} {e : Elem} (h : blueprintToRefract env b = .ok e) :
    e.name = str "category" ∧ metaText e (str "title") = some b.name ∧ classesE e = [str "api"] ∧
      List.Forall₂ (ShowsResource env) (resourcesOfList b.elements) (resourceElems e) := by
  unfold blueprintToRefract at h
  simp only [bind_ok] at h
  obtain ⟨l, h1, h⟩ := h
  cases h
  refine ⟨?_, ?_, ?_, ?_⟩
  · rw [name_setData]; split <;> rfl
  · rw [metaText, metas_setData]; split <;> rfl
  · cases b.metadata <;> rfl
  · rw [resourceElems_category (l := (copyToRefract b.description).toList ++ l)]
    · rw [resourceElemsL_append, resourceElemsL_names (by decide) (by decide) (copy_name _)]
      exact elements_resources env _ h1
    · rw [name_setData]; split <;> rfl
    · split <;> rfl

end Verif.RefractApi
