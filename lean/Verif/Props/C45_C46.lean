import Verif.Proof.RefractApi
/-!
# C45 Transactions pair requests and responses; C46 Explicit bodies and schemas win
-/
namespace Verif.Props
open Verif Verif.Refract Verif.RefractApi Verif.Spec

/-! ## C45 -/

/-- The transition of an action consists of its description, if any, and one transaction for each request-response pair of each
    example, in order. -/
theorem C45_transactions {δ : Type} (env : Env δ) (a : Action δ) (e : Elem) (h : actionToRefract env a = .ok e) :
    ∃ copies ts, childrenE e = copies ++ ts ∧
      (if a.description = [] then copies = [] else ∃ c, copies = [c] ∧ c.name = str "copy" ∧ textOf c = some a.description) ∧
      List.Forall₂ (IsTransaction env a) (a.examples.flatMap fun x => (pairsOf x).map fun p => (x, p)) ts := by
  obtain ⟨ts, h1, h2⟩ := action_spec h
  exact ⟨_, ts, h1, copy_spec _, h2⟩

/-- Nothing but the conversion of payloads and data structures can make the conversion of an action fail. -/
theorem C45_total {δ : Type} (env : Env δ) (a : Action δ) (h : ∃ d, dataStructureToRefract env a.attributes = .ok d)
    (hp : ∀ x ∈ a.examples, ∀ p ∈ pairsOf x, (∃ q, payloadToRefract env p.1 (some a) = .ok q) ∧ ∃ r, payloadToRefract env p.2 none = .ok r) :
    ∃ e, actionToRefract env a = .ok e := action_total env a h hp

/-- The first element of a transaction is a request with the method of the action and the name of the request as the title. -/
theorem C45_request {δ : Type} (env : Env δ) (a : Action δ) (hm : a.method ≠ []) (q : Option (Payload δ)) (e : Elem)
    (h : payloadToRefract env q (some a) = .ok e) :
    e.name = str "httpRequest" ∧ attrText e (str "method") = some a.method ∧
      metaText e (str "title") = q.bind fun q => if q.name = [] then none else some q.name := by
  obtain ⟨h1, h2, h3⟩ := payload_head h
  obtain ⟨g1, g2, g3⟩ := request_head q a hm
  refine ⟨h1.trans g1, ?_, ?_⟩
  · rw [attrText, h3, g2]; rfl
  · rw [metaText, h2, g3]
    cases q with
    | none => rfl
    | some q => simp only [Option.bind]; cases q.name <;> rfl

/-- The second one is a response with the status code, if there is a response. -/
theorem C45_response {δ : Type} (env : Env δ) (r : Option (Payload δ)) (e : Elem) (h : payloadToRefract env r none = .ok e) :
    e.name = str "httpResponse" ∧ attrText e (str "statusCode") = r.map (·.name) := by
  obtain ⟨h1, h2, h3⟩ := payload_head h
  obtain ⟨g1, g2⟩ := response_head r
  refine ⟨h1.trans g1, ?_⟩
  rw [attrText, h3, g2]
  cases r <;> rfl

/-- The number of transactions of an example. -/
theorem C45_count {δ : Type} (x : Example δ) :
    (pairsOf x).length = if x.requests = [] then x.responses.length else if x.responses = [] then x.requests.length
      else x.requests.length * x.responses.length := by
  unfold pairsOf
  cases x.requests with
  | nil => simp
  | cons q qs =>
    cases x.responses with
    | nil => simp
    | cons r rs => simp [List.length_flatMap]; rw [Nat.add_mul, Nat.one_mul]; omega

/-- No data structures at all. -/
def noStructures : Env Unit := { isEmpty := fun _ => true, mson := fun _ => .ok none, expand := .ok }

/-- Two requests and two responses give four transactions, and an example with one response gives another one. -/
def getAction : Action Unit :=
  { method := str "GET", attributes := (), examples :=
    [{ requests := [{ name := str "A", attributes := () }, { name := str "B", attributes := () }],
       responses := [{ name := str "200", attributes := (), body := str "{}" }, { name := str "404", attributes := () }] },
     { responses := [{ name := str "204", attributes := () }] }] }

example : ∃ e, actionToRefract noStructures getAction = .ok e ∧ (childrenE e).map (fun t => (childrenE t).map fun p => metaText p (str "title") <|> attrText p (str "statusCode")) =
    [[some (str "A"), some (str "200")], [some (str "A"), some (str "404")], [some (str "B"), some (str "200")], [some (str "B"), some (str "404")],
     [none, some (str "204")]] := ⟨_, rfl, by decide +kernel⟩

/-! ## C46 -/

/-- An explicit body is the only message body of a payload, as it is, with the content type of the payload. -/
theorem C46_explicit_body {δ : Type} (env : Env δ) (p : Payload δ) (a : Option (Action δ)) (e : Elem)
    (h : payloadToRefract env (some p) a = .ok e) (hb : p.body ≠ []) :
    ∃ c, assetsE (str "messageBody") e = [c] ∧ c.name = str "asset" ∧ textOf c = some p.body ∧
      ∀ v, FirstHeader (str "Content-Type") p.headers v →
        attrText c (str "contentType") = (if MediaType.print (MediaType.parseMediaType v) = [] then none
          else some (MediaType.print (MediaType.parseMediaType v))) := by
  obtain ⟨x, _, hx, _⟩ := payload_parts h
  unfold bodyAssets at hx
  rw [if_neg (by simpa using hb)] at hx
  refine ⟨_, (Except.ok.inj hx).symm, name_asset, text_asset, ?_⟩
  intro v hv
  rw [firstHeader_contentType] at hv
  rw [contentType_asset, hv]

/-- Without an explicit body, there is a message body exactly if the payload (or else the action of the request) has a data structure,
    the media type is JSON and generation is not switched off; it is then the JSON value generated from that data structure. -/
theorem C46_generated_body {δ : Type} (env : Env δ) (p : Payload δ) (a : Option (Action δ)) (e : Elem)
    (h : payloadToRefract env (some p) a = .ok e) (hb : p.body = []) :
    (assetsE (str "messageBody") e ≠ [] ↔ (∃ d, StructureOf env p a d) ∧ IsJsonPayload p ∧ Api.isSkipBodies env.options = false) ∧
    (assetsE (str "messageBody") e = [] ∨ ∃ c d v, assetsE (str "messageBody") e = [c] ∧ StructureOf env p a d ∧
      JsonValue.generateJsonValue d = .ok v ∧ textOf c = some (Json.serializeJson false v)) := by
  obtain ⟨x, hd, hx, _⟩ := payload_parts h
  unfold bodyAssets at hx
  rw [if_pos (by simp [hb])] at hx
  rw [isJson_iff]
  cases x with
  | none =>
    have hx : [] = assetsE (str "messageBody") e := Except.ok.inj hx
    rw [← hx]
    simp only [ne_eq, not_true_eq_false, true_or, and_true, false_iff]
    rintro ⟨⟨d, h⟩, _⟩
    have := (hd d).1 h
    cases this
  | some d =>
    have hsd : StructureOf env p a d := (hd d).2 rfl
    dsimp only at hx
    split at hx
    · rename_i hs
      have hx : [] = assetsE (str "messageBody") e := Except.ok.inj hx
      rw [← hx]
      simp [hs]
    · rename_i hs
      unfold generateValueAsset at hx
      split at hx
      · rename_i hj
        obtain ⟨v, hv, hx⟩ := bind_ok.1 hx
        have hx := Except.ok.inj hx
        rw [← hx]
        refine ⟨?_, .inr ⟨_, d, v, rfl, hsd, ?_, text_asset⟩⟩
        · simp only [ne_eq, List.cons_ne_nil, not_false_eq_true, true_iff]
          exact ⟨⟨d, hsd⟩, hj, by simpa using hs⟩
        · cases hg : JsonValue.generateJsonValue d with
          | error f => rw [hg] at hv; cases hv
          | ok w => rw [hg] at hv; cases hv; rfl
      · rename_i hj
        have hx : [] = assetsE (str "messageBody") e := Except.ok.inj hx
        rw [← hx]
        simp [hj]

/-- The same for schemas; the content type of an explicit schema is that of JSON schema or plain text. -/
theorem C46_explicit_schema {δ : Type} (env : Env δ) (p : Payload δ) (a : Option (Action δ)) (e : Elem)
    (h : payloadToRefract env (some p) a = .ok e) (hb : p.schema ≠ []) :
    ∃ c, assetsE (str "messageBodySchema") e = [c] ∧ c.name = str "asset" ∧ textOf c = some p.schema ∧
      (IsJsonPayload p → attrText c (str "contentType") = some (str "application/schema+json")) ∧
      (¬ IsJsonPayload p → attrText c (str "contentType") = some (str "text/plain")) := by
  obtain ⟨x, _, _, hx⟩ := payload_parts h
  unfold schemaAssets at hx
  rw [if_neg (by simpa using hb)] at hx
  refine ⟨_, (Except.ok.inj hx).symm, name_asset, text_asset, ?_, ?_⟩
  · intro hj
    rw [isJson_iff] at hj
    rw [contentType_asset, if_pos hj]
    decide +kernel
  · intro hj
    rw [isJson_iff] at hj
    rw [contentType_asset, if_neg hj]
    decide +kernel

theorem C46_generated_schema {δ : Type} (env : Env δ) (p : Payload δ) (a : Option (Action δ)) (e : Elem)
    (h : payloadToRefract env (some p) a = .ok e) (hb : p.schema = []) :
    (assetsE (str "messageBodySchema") e ≠ [] ↔ (∃ d, StructureOf env p a d) ∧ IsJsonPayload p ∧ Api.isSkipSchemas env.options = false) ∧
    (assetsE (str "messageBodySchema") e = [] ∨ ∃ c d v, assetsE (str "messageBodySchema") e = [c] ∧ StructureOf env p a d ∧
      JsonSchema.generateJsonSchema d = .ok v ∧ textOf c = some (Json.serializeJson false v) ∧
      attrText c (str "contentType") = some (str "application/schema+json")) := by
  obtain ⟨x, hd, _, hx⟩ := payload_parts h
  unfold schemaAssets at hx
  rw [if_pos (by simp [hb])] at hx
  rw [isJson_iff]
  cases x with
  | none =>
    have hx : [] = assetsE (str "messageBodySchema") e := Except.ok.inj hx
    rw [← hx]
    simp only [ne_eq, not_true_eq_false, true_or, and_true, false_iff]
    rintro ⟨⟨d, h⟩, _⟩
    have := (hd d).1 h
    cases this
  | some d =>
    have hsd : StructureOf env p a d := (hd d).2 rfl
    dsimp only at hx
    split at hx
    · rename_i hs
      have hx : [] = assetsE (str "messageBodySchema") e := Except.ok.inj hx
      rw [← hx]
      simp [hs]
    · rename_i hs
      unfold generateSchemaAsset at hx
      split at hx
      · rename_i hj
        obtain ⟨v, hv, hx⟩ := bind_ok.1 hx
        have hx := Except.ok.inj hx
        rw [← hx]
        refine ⟨?_, .inr ⟨_, d, v, rfl, hsd, ?_, text_asset, ?_⟩⟩
        · simp only [ne_eq, List.cons_ne_nil, not_false_eq_true, true_iff]
          exact ⟨⟨d, hsd⟩, hj, by simpa using hs⟩
        · cases hg : JsonSchema.generateJsonSchema d with
          | error f => rw [hg] at hv; cases hv
          | ok w => rw [hg] at hv; cases hv; rfl
        · rw [contentType_asset]; decide +kernel
      · rename_i hj
        have hx : [] = assetsE (str "messageBodySchema") e := Except.ok.inj hx
        rw [← hx]
        simp [hj]

/-- Every data structure is the string `abc`. -/
def abcStructures : Env Unit := { isEmpty := fun _ => false, mson := fun _ => .ok (some (makeElement (.string (str "abc")))), expand := .ok }

def jsonPayload : Payload Unit := { headers := [(str "Content-Type", str "application/json")], attributes := () }

/-- The texts of the bodies and of the schemas of a payload. -/
def generated (p : Payload Unit) : Option (List (Option Bytes) × List (Option Bytes)) :=
  (payloadToRefract abcStructures (some p) none).toOption.map fun e =>
    ((assetsE (str "messageBody") e).map textOf, (assetsE (str "messageBodySchema") e).map textOf)

def abcSchema : Bytes := str "{\n  \"$schema\": \"http://json-schema.org/draft-07/schema#\",\n  \"type\": \"string\"\n}"

example : generated jsonPayload = some ([some (str "\"abc\"")], [some abcSchema]) := by decide +kernel
example : generated { jsonPayload with body := str "x" } = some ([some (str "x")], [some abcSchema]) := by decide +kernel
example : generated { jsonPayload with schema := str "x" } = some ([some (str "\"abc\"")], [some (str "x")]) := by decide +kernel

/-- The name of the header is compared exactly, although header names ignore case: with `content-type` nothing is generated. -/
theorem C46_case_refuted : generated { jsonPayload with headers := [(str "content-type", str "application/json")] } = some ([], []) := by
  decide +kernel

end Verif.Props
