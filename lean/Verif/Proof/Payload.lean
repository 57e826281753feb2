import Verif.Proof.PayloadLoop

/-! # What the parsers of assets, headers and payloads give -/

namespace Verif.Payload
open Verif Verif.Text Verif.Section Verif.Recognition

theorem oneSignature_eq {σ : Type} {f : Node → PD σ → Except Stop σ} {ns : List Node} {i : Nat} {n : Node} {ctx : List SectionType}
    {d : σ} (h : ns[i]? = some n) : oneSignature f ns i ⟨ctx, d⟩ =
      match f n ⟨ctx, d⟩ with
      | .error e => .error e
      | .ok d' => .ok (.done (i + 1) .default ⟨ctx, d'⟩) := by
  unfold oneSignature
  rw [one_eq h]
  cases f n ⟨ctx, d⟩ <;> rfl

/-- The block is not the start of a section. -/
def plain (n : Node) : Bool := recognise.keyword n = .undefined

/-! ## Assets -/

theorem getAsset_set (t : SectionType) (v : Bytes) (p : Payload) : getAsset t (setAsset t v p) = v := by
  unfold getAsset setAsset; by_cases h : t = .schema <;> simp [h]

theorem setAsset_set (t : SectionType) (v u : Bytes) (p : Payload) : setAsset t v (setAsset t u p) = setAsset t v p := by
  unfold setAsset; by_cases h : t = .schema <;> simp [h]

/-- The asset that an item gives, and the warnings. -/
def assetText (w : World) (t parent : SectionType) (sig : Node) (blocks : List Node) : Bytes :=
  (signatureContent t parent sig).1 ++ ((blocks.takeWhile plain).map fun n => (contentAsCodeBlock w t parent n).1).flatten

def assetWarnings (w : World) (t parent : SectionType) (sig : Node) (blocks : List Node) : List Warning :=
  (signatureContent t parent sig).2 ++ ((blocks.takeWhile plain).map fun n => (contentAsCodeBlock w t parent n).2).flatten ++
    (blocks.dropWhile plain).map ignored

theorem steps_asset (w : World) (t : SectionType) (ctx : List SectionType) (l : List Node) : ∀ (d : Data),
    steps (fun n d => assetContent w t n ⟨ctx, d⟩) l d =
      .ok ⟨setAsset t (getAsset t d.payload ++ (l.map fun n => (contentAsCodeBlock w (⟨ctx, d⟩ : PD Data).top
          (⟨ctx, d⟩ : PD Data).parent n).1).flatten) d.payload,
        d.warnings ++ (l.map fun n => (contentAsCodeBlock w (⟨ctx, d⟩ : PD Data).top (⟨ctx, d⟩ : PD Data).parent n).2).flatten⟩ := by
  induction l with
  | nil =>
    intro d
    rw [steps]
    simp [getAsset, setAsset]
    split <;> rfl
  | cons n l ih =>
    intro d
    rw [steps, assetContent]
    simp only
    rw [ih]
    simp only [List.map_cons, List.flatten_cons, setAsset_set, getAsset_set]
    simp only [List.append_assoc]
    rfl

theorem loop_ignored (ty : Node → SectionType) (l : List Node) : ∀ (last : SectionType) (d : Data),
    loop (fun n _ (d : Data) => (.ok (d.warn [ignored n]) : Except Stop Data)) ty l last d = .ok (d.warn (l.map ignored)) := by
  induction l with
  | nil => intro last d; simp [loop, Data.warn]
  | cons n l ih => intro last d; rw [loop]; simp only; rw [ih]; simp [Data.warn]

theorem steps_nil_of_false {σ : Type} (g : Node → σ → Except Stop σ) (l : List Node) (d : σ) :
    steps g (l.takeWhile fun _ => false) d = .ok d := by
  cases l <;> rfl

theorem dropWhile_false (l : List Node) : l.dropWhile (fun _ => false) = l := by cases l <;> rfl

theorem asset_parse (w : World) (t : SectionType) (child : SectionType → Parse Data) {siblings : List Node} {i : Nat}
    {n sig : Node} {blocks : List Node} (parent : SectionType) (outer : List SectionType) (d : Data)
    (hi : siblings[i]? = some n) (hk : n.kind = .listItem) (hr : read n = sig :: blocks) :
    parseSection (assetOwn w t) .list child siblings i ⟨t :: parent :: outer, d⟩ =
      .ok (i + 1, ⟨t :: parent :: outer, ⟨setAsset t (assetText w t parent sig blocks) d.payload,
        d.warnings ++ assetWarnings w t parent sig blocks⟩⟩) := by
  rw [parse_item (top := t) (sg := fun n d => assetSignature t n ⟨t :: parent :: outer, d⟩) (ds := fun _ d => .ok d)
    (cs := fun n d => assetContent w t n ⟨t :: parent :: outer, d⟩)
    (f := fun n _ d => .ok (d.warn [ignored n])) (fin := id) d hi hk hr (fun _ => rfl)
    (fun ns j m d h => oneSignature_eq h) (fun _ _ _ _ _ h => by cases h)
    (fun ns j m d h _ => one_eq (f := assetContent w t) (pd := ⟨t :: parent :: outer, d⟩) h) (fun _ _ _ => rfl) ?_ (fun _ _ _ => rfl)]
  · unfold itemResult
    simp only [assetOwn, steps_nil_of_false, dropWhile_false, assetSignature, loop_ignored]
    rw [show (fun n => decide (recognise.keyword n = .undefined)) = plain from rfl]
    rw [steps_asset]
    simp only [getAsset_set, setAsset_set]
    show Except.ok _ = Except.ok _
    simp only [assetText, assetWarnings, Data.warn, List.append_assoc]
    rfl
  · intro ns j m last d h
    unfold nestedStep
    simp only [assetOwn, ne_eq, not_true_eq_false, if_false, Bool.true_or, if_true]
    exact one_eq (f := fun n (pd : PD Data) => .ok (pd.data.warn [ignored n])) h

/-! ## Headers -/

/-- The data after a headers section. -/
def headersResult (w : World) (parent : SectionType) (sig : Node) (blocks : List Node) (d : Data) : Data :=
  let d₁ := readHeaders w (sig.sourceMap.drop 1) (d.warn (signatureContent .headers parent sig).2)
  let d₂ := (blocks.takeWhile plain).foldl
    (fun d n => readHeaders w n.sourceMap (d.warn (contentAsCodeBlock w .headers parent n).2)) d₁
  let d₃ := d₂.warn ((blocks.dropWhile plain).map ignored)
  d₃.warn (if d₃.payload.headers.isEmpty then [.noHeaders] else [])

theorem steps_ok {σ : Type} (g : Node → σ → σ) (l : List Node) : ∀ (d : σ),
    steps (fun n d => .ok (g n d)) l d = .ok (l.foldl (fun d n => g n d) d) := by
  induction l with
  | nil => intro d; rfl
  | cons n l ih => intro d; rw [steps]; simp only; rw [ih]; rfl

theorem headers_parse (w : World) (child : SectionType → Parse Data) {siblings : List Node} {i : Nat}
    {n sig : Node} {blocks : List Node} (parent : SectionType) (outer : List SectionType) (d : Data)
    (hi : siblings[i]? = some n) (hk : n.kind = .listItem) (hr : read n = sig :: blocks) :
    parseSection (headersOwn w) .list child siblings i ⟨.headers :: parent :: outer, d⟩ =
      .ok (i + 1, ⟨.headers :: parent :: outer, headersResult w parent sig blocks d⟩) := by
  rw [parse_item (top := .headers) (sg := fun n d => headersSignature w n ⟨.headers :: parent :: outer, d⟩) (ds := fun _ d => .ok d)
    (cs := fun n d => headersContent w n ⟨.headers :: parent :: outer, d⟩)
    (f := fun n _ d => .ok (d.warn [ignored n]))
    (fin := fun d => d.warn (if d.payload.headers.isEmpty then [.noHeaders] else [])) d hi hk hr (fun _ => rfl)
    (fun ns j m d h => oneSignature_eq h) (fun _ _ _ _ _ h => by cases h)
    (fun ns j m d h _ => one_eq (f := headersContent w) (pd := ⟨.headers :: parent :: outer, d⟩) h) (fun _ _ _ => rfl) ?_
    (fun _ _ _ => rfl)]
  · unfold itemResult
    simp only [headersOwn, steps_nil_of_false, dropWhile_false, headersSignature, headersContent, loop_ignored]
    rw [show (fun n => decide (recognise.keyword n = .undefined)) = plain from rfl, steps_ok]
    rfl
  · intro ns j m last d h
    unfold nestedStep
    simp only [headersOwn, ne_eq, not_true_eq_false, if_false, Bool.true_or, if_true]
    exact one_eq (f := fun n (pd : PD Data) => .ok (pd.data.warn [ignored n])) h

/-! ## Nested sections of a payload -/

theorem nested_item {n : Node} (h : payloadNested n ≠ .undefined) : n.kind = .listItem ∧ n.children ≠ [] := by
  unfold payloadNested at h
  by_cases hk : n.kind = .listItem ∧ n.children ≠ []
  · exact hk
  · exfalso; apply h
    simp [Recognise.ofList, if_neg hk, Recognise.first]

theorem nested_cases (n : Node) : payloadNested n = .headers ∨ payloadNested n = .body ∨ payloadNested n = .schema ∨
    payloadNested n = .attributes ∨ payloadNested n = .parameters ∨ payloadNested n = .undefined := by
  unfold payloadNested
  simp only [Recognise.first, Recognise.ofList, Recognise.when, assetOf]
  repeat' split
  all_goals simp_all

/-- What a block after the description and the content gives. -/
def sectionData (w : World) (context : SectionType) (outer : List SectionType) (n : Node) (last : SectionType) (d : Data) :
    Except Stop Data :=
  match payloadNested n, read n with
  | .headers, sig :: blocks => .ok (headersResult w context sig blocks d)
  | .attributes, _ =>
    let r := w.attributes n d.payload.attributes
    .ok ⟨{ d.payload with attributes := r.1 }, d.warnings ++ r.2⟩
  | .parameters, _ =>
    if context ≠ .request then .ok (d.warn [.foreignParameters])
    else
      let r := w.parameters n d.payload.parameters
      .ok ⟨{ d.payload with parameters := r.1 }, d.warnings ++ r.2⟩
  | .body, sig :: blocks => .ok ⟨setAsset .body (assetText w .body context sig blocks) d.payload,
      (redefinition .body d).warnings ++ assetWarnings w .body context sig blocks⟩
  | .schema, sig :: blocks => .ok ⟨setAsset .schema (assetText w .schema context sig blocks) d.payload,
      (redefinition .schema d).warnings ++ assetWarnings w .schema context sig blocks⟩
  | _, _ => payloadUnexpected w last n ⟨.undefined :: context :: outer, d⟩

theorem read_ne {n : Node} (h : n.children ≠ []) : ∃ sig blocks, read n = sig :: blocks := by
  unfold read
  cases hc : n.children.drop (firstMapped n.children) with
  | nil =>
    have := firstMapped_lt h
    rw [List.drop_eq_nil_iff] at hc
    omega
  | cons a l => exact ⟨a, l, rfl⟩

theorem payload_step (w : World) (context : SectionType) (outer : List SectionType) (ns : List Node) (j : Nat) (m : Node)
    (last : SectionType) (d : Data) (h : ns[j]? = some m) :
    nestedStep (payloadOwn w) true (fun t => (payloadChild w t).parse) ns m j last
      ⟨(payloadOwn w).nestedType m :: context :: outer, d⟩ =
      outcome j ((payloadOwn w).nestedType m :: context :: outer) (sectionData w context outer m last d) := by
  have hu : payloadNested m ≠ .undefined → ∃ sig blocks, m.kind = .listItem ∧ read m = sig :: blocks := by
    intro hn
    obtain ⟨h1, h2⟩ := nested_item hn
    obtain ⟨sig, blocks, hr⟩ := read_ne h2
    exact ⟨sig, blocks, h1, hr⟩
  unfold nestedStep sectionData
  simp only [payloadOwn, Bool.true_or, if_true]
  rcases nested_cases m with hm | hm | hm | hm | hm | hm
  · obtain ⟨sig, blocks, hk, hr⟩ := hu (by rw [hm]; decide)
    simp only [hm, hr, payloadNestedSection, h, PD.top, PD.set, ne_eq, reduceCtorEq, not_false_eq_true, if_true]
    rw [show (payloadChild w .headers).parse ns j ⟨.headers :: context :: outer, d⟩ = _ from
      headers_parse w _ context outer d h hk hr]
    rfl
  · obtain ⟨sig, blocks, hk, hr⟩ := hu (by rw [hm]; decide)
    simp only [hm, hr, payloadNestedSection, h, PD.top, PD.set, ne_eq, reduceCtorEq, not_false_eq_true, if_true]
    rw [show (payloadChild w .body).parse ns j ⟨.body :: context :: outer, redefinition .body d⟩ = _ from
      asset_parse w .body _ context outer _ h hk hr]
    rfl
  · obtain ⟨sig, blocks, hk, hr⟩ := hu (by rw [hm]; decide)
    simp only [hm, hr, payloadNestedSection, h, PD.top, PD.set, ne_eq, reduceCtorEq, not_false_eq_true, if_true]
    rw [show (payloadChild w .schema).parse ns j ⟨.schema :: context :: outer, redefinition .schema d⟩ = _ from
      asset_parse w .schema _ context outer _ h hk hr]
    rfl
  · simp only [hm, payloadNestedSection, h, PD.top, ne_eq, reduceCtorEq, not_false_eq_true, if_true]
    rfl
  · simp only [hm, payloadNestedSection, h, PD.top, PD.parent, ne_eq, reduceCtorEq, not_false_eq_true, if_true]
    by_cases hc : context = .request
    · simp only [hc, not_true_eq_false, if_false]; rfl
    · simp only [hc, not_false_eq_true, if_true]; rfl
  · simp only [hm, ne_eq, not_true_eq_false, if_false]
    exact one_eq (f := payloadUnexpected w last) h

/-- The payload that the item gives. -/
def payloadResult (w : World) (context : SectionType) (outer : List SectionType) (sig : Node) (blocks : List Node) :
    Except Stop Data :=
  itemResult (fun n d => payloadSignature w n ⟨context :: outer, d⟩)
    (fun n => !isAbbreviated context && (payloadNested n = .undefined))
    (fun n d => payloadDescription w n ⟨context :: outer, d⟩)
    (fun n => isAbbreviated context && plain n)
    (fun n d => payloadContent w n ⟨context :: outer, d⟩)
    (sectionData w context outer) payloadNested (fun d => (payloadFinalize ⟨context :: outer, d⟩).data) sig blocks {}

theorem payload_parse (w : World) {siblings : List Node} {i : Nat}
    {n sig : Node} {blocks : List Node} (context : SectionType) (outer : List SectionType)
    (hi : siblings[i]? = some n) (hk : n.kind = .listItem) (hr : read n = sig :: blocks) :
    parsePayload w context outer siblings i = outcome i (context :: outer) (payloadResult w context outer sig blocks) := by
  unfold parsePayload payloadGrammar Grammar.parse
  rw [parse_item (top := context) (sg := fun n d => payloadSignature w n ⟨context :: outer, d⟩)
    (ds := fun n d => payloadDescription w n ⟨context :: outer, d⟩)
    (cs := fun n d => payloadContent w n ⟨context :: outer, d⟩)
    (f := sectionData w context outer)
    (fin := fun d => (payloadFinalize ⟨context :: outer, d⟩).data) {} hi hk hr (fun _ => rfl)
    (fun ns j m d h => oneSignature_eq h)
    (fun ns j m d h _ => one_eq (f := payloadDescription w) (pd := ⟨context :: outer, d⟩) h)
    (fun ns j m d h _ => one_eq (f := payloadContent w) (pd := ⟨context :: outer, d⟩) h) (fun _ _ _ => rfl)
    (payload_step w context outer) (fun _ _ _ => rfl)]
  unfold payloadResult
  congr 2
  funext m
  simp only [payloadOwn, Recognise.isDescription]
  congr 1
  by_cases h : payloadNested m = .undefined
  · simp [h]
  · simp [h]

end Verif.Payload
