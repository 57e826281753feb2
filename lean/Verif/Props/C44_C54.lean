import Verif.Proof.References

/-!
# C44 (references to models) and C54 (examples of an action)
-/

namespace Verif.Props
open Verif Verif.References Verif.Spec.References

/-! ## C44 -/

/-- What a reference looks like: `[symbol][]`, with white space allowed around it and around the
symbol. -/
theorem C44_reference_text (text symbol : Bytes) (h0 : (0 : UInt8) ∉ text) :
    modelReference text = some symbol ↔ IsReference text symbol := modelReference_iff h0 symbol

/-- After parsing, no request or response that names a model is left pending. -/
theorem C44_no_named_reference_pending (doc : List (Element ResourceSource)) (p : Payload)
    (hp : p ∈ payloads (parse doc).elements) (hid : p.refId ≠ []) : p.refState ≠ .pending := by
  have h := parse_payloads doc
  generalize allSources doc = ss at h
  generalize payloads (parse doc).elements = ps at h hp
  induction h with
  | nil => cases hp
  | cons hab _ ih =>
    rcases List.mem_cons.1 hp with rfl | hp
    · obtain ⟨t, _, rfl⟩ := hab
      exact resolved_settled _ _ hid
    · exact ih hp

/-- The outcome depends on the models by name only, not on whether the model or the reference comes
first: every request and response is filled in with the model it names, or is left as it is and
marked unresolved if there is no such model.  Missing from the full property: references with a
blank symbol, and documents with deprecated headers sections (both refuted below). -/
theorem C44_order_does_not_matter_partial (doc : List (Element ResourceSource)) (hf : Fresh doc)
    (hid : ∀ s ∈ sources doc, modelReference s.text ≠ some []) (hh : NoDeprecatedHeaders doc) :
    List.Forall₂ (Meaning (parse doc).table.find) (sources doc)
      (payloads (parse doc).elements) := by
  have h := parse_payloads doc
  have hn := noHeaders_allSources hh
  have hf' : ∀ s ∈ allSources doc, s.2.own.refId = [] := fun s hs =>
    hf s.2 (by rw [← allSources_snd]; exact List.mem_map_of_mem hs)
  have hid' : ∀ s ∈ allSources doc, modelReference s.2.text ≠ some [] := fun s hs =>
    hid s.2 (by rw [← allSources_snd]; exact List.mem_map_of_mem hs)
  rw [← allSources_snd, List.forall₂_map_left_iff]
  generalize allSources doc = ss at h hn hf' hid'
  generalize payloads (parse doc).elements = ps at h
  induction h with
  | nil => exact .nil
  | @cons a b as bs hab _ ih =>
    obtain ⟨t, ht, rfl⟩ := hab
    refine .cons ?_ (ih (fun s hs => hn s (by simp [hs])) (fun s hs => hf' s (by simp [hs]))
      fun s hs => hid' s (by simp [hs]))
    rw [hn a (by simp), injected_nil]
    exact resolved_meaning ht a.2 (hf' a (by simp)) (hid' a (by simp))

/-- The model that a name stands for is the first one defined with that name. -/
theorem C44_first_definition_counts (doc : List (Element ResourceSource))
    (hp : ∀ x ∈ modelSources doc, modelReference x.2.text = none) (id : Bytes) :
    (parse doc).table.find id =
      ((modelSources doc).find? fun x => modelName x = id).map modelDefinition := by
  have h := readModels_find (modelSources doc) hp id {}
  rw [← parseElements_memory] at h
  exact h

/-- The parse reports a model error exactly if a name is used that no model has, a name is given to
two models, or a model has no name. -/
theorem C44_error_reported_iff (doc : List (Element ResourceSource)) (hf : Fresh doc) :
    (parse doc).error.isSome ↔
      (∃ s ∈ sources doc, ∃ id, id ≠ [] ∧ modelReference s.text = some id ∧
        id ∉ (modelSources doc).map modelName) ∨
      ¬ ((modelSources doc).map modelName).Nodup ∨ [] ∈ (modelSources doc).map modelName := by
  rw [parse_error_iff doc hf]
  constructor
  · rintro (h | h | h)
    · exact .inr (.inr h)
    · exact .inr (.inl h)
    · exact .inl h
  · rintro (h | h | h)
    · exact .inr (.inr h)
    · exact .inr (.inl h)
    · exact .inl h

/-! ### A document that refers forwards, backwards and to nothing -/

/-- `# Coupon [/]`, a model, then an action that refers to it, to a later model and to none. -/
def coupons : List (Element ResourceSource) :=
  let ref (t : String) : Source := { own := { name := str "200" }, text := str t }
  let coupon : Source :=
    ⟨{ headers := [(str "Content-Type", str "text/plain")] }, str "a coupon", str "a coupon"⟩
  let list : Source := { own := {}, text := str "a list", body := str "a list" }
  [.category [.other, .resource { name := str "Coupon", sections :=
      [.model coupon, .action { payloads :=
        [(.request, ref "[Coupon][]"), (.response, ref " [ Coupons ][]\n"),
          (.response, ref "[Lost][]"), (.request, ref "not a reference")] }] }],
    .content (.resource { name := str "Coupons", sections := [.model list] })]

example : Fresh coupons ∧ (∀ s ∈ sources coupons, modelReference s.text ≠ some []) ∧
    NoDeprecatedHeaders coupons ∧ (∀ x ∈ modelSources coupons, modelReference x.2.text = none) := by
  refine ⟨?_, ?_, ?_, ?_⟩
  · unfold Fresh; decide +kernel
  · decide +kernel
  · unfold NoDeprecatedHeaders; decide +kernel
  · decide +kernel

example : (payloads (parse coupons).elements).map (fun p => (p.body, p.refState)) =
      [(str "a coupon", .resolved), (str "a list", .resolved), ([], .unresolved),
        ([], .unresolved)] ∧
    (parse coupons).error = some (.undefinedModel (str "Lost")) := by decide +kernel

/-! ### What does not hold -/

/-- A document with one response. -/
def oneResponse (text : String) : List (Element ResourceSource) :=
  [.content (.resource { sections := [.action { payloads :=
    [(.response, { own := { name := str "200" }, text := str text, body := str text })] }] })]

/-- A reference with a blank symbol stays pending for ever, nothing is reported, and the text is
lost. -/
theorem C44_blank_symbol_refuted :
    ∃ doc : List (Element ResourceSource), Fresh doc ∧ (parse doc).error = none ∧
      ∃ p ∈ payloads (parse doc).elements, p.refState = .pending ∧ p.body = [] := by
  refine ⟨oneResponse "[ ][]", by unfold Fresh; decide +kernel, by decide +kernel, ?_⟩
  exact ⟨{ name := str "200", refState := .pending }, by decide +kernel, rfl, rfl⟩

/-- The model of the next document. -/
def typed : Section :=
  .model ⟨{ headers := [(str "Content-Type", str "text/plain")] }, str "x", str "x"⟩

/-- An action with a deprecated headers section and a reference. -/
def oldHeaders : Section :=
  .action ⟨[(str "X", str "1")],
    [(.response, { own := { name := str "200" }, text := str "[M][]" })]⟩

/-- With a deprecated headers section the order does matter: the headers survive if the model comes
first, and are lost if it comes later. -/
theorem C44_deprecated_headers_refuted :
    (payloads (parse [.content (.resource { name := str "M", sections := [typed, oldHeaders] })]).elements).map
        (·.headers) = [[(str "X", str "1"), (str "Content-Type", str "text/plain")]] ∧
      (payloads (parse [.content (.resource { name := str "M", sections := [oldHeaders, typed] })]).elements).map
        (·.headers) = [[(str "Content-Type", str "text/plain")]] := by
  constructor <;> decide +kernel

/-- A model that is itself a reference to a later model is never filled in: a request that refers to
it is called resolved, has no body, and nothing is reported. -/
theorem C44_chained_model_refuted :
    ∃ doc : List (Element ResourceSource), Fresh doc ∧ (parse doc).error = none ∧
      (∃ m, (parse doc).table.find (str "A") = some m ∧ m.refState = .pending) ∧
      ∃ p ∈ payloads (parse doc).elements, p.refState = .resolved ∧ p.body = [] := by
  refine ⟨[.content (.resource { name := str "A", sections :=
      [.model { own := {}, text := str "[B][]" },
        .action { payloads := [(.response, { own := { name := str "200" }, text := str "[A][]" })] }] }),
    .content (.resource { name := str "B", sections :=
      [.model { own := {}, text := str "x", body := str "x" }] })],
    by unfold Fresh; decide +kernel, by decide +kernel, ?_, ?_⟩
  · exact ⟨{ name := str "A", refId := str "B", refState := .pending }, by decide +kernel, rfl⟩
  · exact ⟨{ name := str "200", refId := str "A", refState := .resolved }, by decide +kernel, rfl, rfl⟩

/-! ## C54 -/

/-- The requests and responses of an action keep their order, and are cut into examples where a
request follows a response and nowhere else. -/
theorem C54_examples_of_an_action (t : Table) (payloads : List (Side × Source)) :
    let es := (parseAction t { payloads := payloads }).examples
    es.flatMap sides = payloads.map (fun sp => (sp.1, parsePayload t sp.2)) ∧ Cut es ∧
      ∀ e ∈ es, ofExample e ≠ [] := by
  simp only [parseAction, List.isEmpty_nil, Bool.not_true, Bool.false_eq_true, if_false]
  suffices h : ∀ (es : List Example), Cut es → (∀ e ∈ es, ofExample e ≠ []) →
      let es' := payloads.foldl (fun es sp => addPayload sp.1 (parsePayload t sp.2) es) es
      es'.flatMap sides = es.flatMap sides ++ payloads.map (fun sp => (sp.1, parsePayload t sp.2)) ∧
        Cut es' ∧ ∀ e ∈ es', ofExample e ≠ [] by
    exact h [] ⟨by simp, by simp⟩ (by simp)
  induction payloads with
  | nil => intro es hc hn; exact ⟨by simp, hc, hn⟩
  | cons sp ps ih =>
    intro es hc hn
    obtain ⟨h1, h2, h3⟩ := ih (addPayload sp.1 (parsePayload t sp.2) es)
      (addPayload_cut _ _ _ hc) (addPayload_nonempty _ _ _ hn)
    refine ⟨?_, h2, h3⟩
    simp only [List.foldl_cons, List.map_cons]
    rw [h1, addPayload_sides, List.append_assoc]
    rfl

/-- There is only one way to cut a sequence like this. -/
theorem C54_cut_is_unique (es es' : List Example) (h : Cut es) (h' : Cut es')
    (hn : ∀ e ∈ es, ofExample e ≠ []) (hn' : ∀ e ∈ es', ofExample e ≠ [])
    (hs : es.flatMap sides = es'.flatMap sides) : es = es' := cut_unique es es' h h' hn hn' hs

example : ((parseAction [] { payloads :=
      [(.response, { own := { name := str "1" } }), (.request, { own := { name := str "2" } }),
        (.request, { own := { name := str "3" } }), (.response, { own := { name := str "4" } }),
        (.response, { own := { name := str "5" } }), (.request, { own := { name := str "6" } })] }).examples.map
      fun e => (e.requests.map (·.name), e.responses.map (·.name))) =
    [([], [str "1"]), ([str "2", str "3"], [str "4", str "5"]), ([str "6"], [])] := by
  decide +kernel

end Verif.Props
