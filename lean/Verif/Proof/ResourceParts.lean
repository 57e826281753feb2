import Verif.Proof.ResourceKinds
import Verif.Proof.Action
import Verif.Props.C75_C76

/-! # The parts of a resource -/

namespace Verif.Resource
open Verif Verif.Text Verif.Regex Verif.Section Verif.Recognition Verif.Spec Verif.Spec.Recognition Verif.Spec.Payload Verif.Spec.Resource Verif.Props
open Verif.Action (Action)
open Verif.Spec.Action (RequestItem ResponseItem HasParts NotFound Injected)
open Verif.Spec.MsonParser (Follows)
open Verif.Payload (steps)
open Verif.References (Table)

/-- The state and the warnings as the parser has them. -/
def data (x : State) (vs : List Warning) : Data := ⟨x.resource, vs, x.table, x.error⟩

theorem of_eq (ws : List Payload.Warning) : of ws = ws.map (.action ∘ .payload) := rfl

theorem of_append (a b : List Payload.Warning) : of (a ++ b) = of a ++ of b := by simp [of]

/-! ## The header -/

theorem beforeNul_iff {text s : Bytes} : BeforeNul text s ↔ s = cstr text := cstr_iff.symm

theorem headLine_iff {text name uri : Bytes} {b : Bool} : HeadLine text name uri b ↔
    name = (resourceParts text).name ∧ uri = (resourceParts text).uri ∧ b = (resourceParts text).action.isSome := by
  have key : ∀ {p : ResourceParts}, resourceParts text = p → p.name = name → p.uri = uri → p.action.isSome = b →
      name = (resourceParts text).name ∧ uri = (resourceParts text).uri ∧ b = (resourceParts text).action.isSome := by
    rintro p h rfl rfl rfl; rw [h]; exact ⟨rfl, rfl, rfl⟩
  constructor
  · intro h
    cases h with
    | uri h1 h2 =>
      rw [beforeNul_iff] at h1
      exact key (C76_uri text _ _ h1 h2) rfl rfl rfl
    | endpoint h1 h2 =>
      rw [beforeNul_iff] at h1
      subst h1
      exact key (parts_endpoint h2) rfl rfl rfl
    | namedEndpoint h1 h2 h3 h4 h5 =>
      rw [beforeNul_iff] at h1
      subst h1
      exact key (parts_namedEndpoint (fun h => h.elim h2 h3) h4 h5) rfl rfl rfl
    | named h1 h2 h3 h4 h5 =>
      rw [beforeNul_iff] at h1
      exact key (C76_named text _ _ _ _ h1 (fun h => h.elim h2 h3) h4 h5) rfl rfl rfl
    | none h1 h2 =>
      rw [beforeNul_iff] at h1
      subst h1
      refine key (parts_none h2) rfl rfl rfl
  · rintro ⟨rfl, rfl, rfl⟩
    have h1 : BeforeNul text (cstr text) := beforeNul_iff.mpr rfl
    by_cases g1 : ∃ u, UriLine (cstr text) u
    · obtain ⟨u, g1⟩ := g1
      rw [C76_uri text _ _ rfl g1]
      exact .uri h1 g1
    by_cases g2 : ∃ m u, EndpointLine (cstr text) m u
    · obtain ⟨m, u, g2⟩ := g2
      rw [parts_endpoint g2]
      exact .endpoint h1 g2
    by_cases g3 : ∃ n u, NamedResourceLine (cstr text) n u
    · obtain ⟨n, u, g3⟩ := g3
      rw [C76_named text _ n (trim n) u rfl (fun h => h.elim g1 g2) g3 (trim_spec _)]
      exact .named h1 g1 g2 g3 (trim_spec _)
    by_cases g4 : ∃ n m u, NamedEndpointLine (cstr text) n m u
    · obtain ⟨n, m, u, g4⟩ := g4
      rw [parts_namedEndpoint (fun h => h.elim g1 g2) g4 (trim_spec _)]
      exact .namedEndpoint h1 g1 g2 g4 (trim_spec _)
    · have g : ¬ ResourceForm (cstr text) := by
        rintro (h | h | h | h)
        · exact g1 h
        · exact g2 h
        · exact g3 h
        · exact g4 h
      rw [parts_none g]
      exact .none h1 g
where
  parts_none {text : Bytes} (h : ¬ ResourceForm (cstr text)) : resourceParts text = {} := by
    have h1 := resource_none (text := text) fun g => h (g.elim .inl fun g => .inr (.inl g))
    have h2 : regexCapture text namedEndpointHeaderRegex 5 = none :=
      regexCapture_full_none 5 c_namedEndpoint (by rw [L_namedEndpoint]; exact fun g => h (.inr (.inr (.inr g))))
    have h3 : regexCapture text namedResourceHeaderRegex 4 = none :=
      regexCapture_full_none 4 c_namedResource (by rw [L_namedResource]; exact fun g => h (.inr (.inr (.inl g))))
    simp only [resourceParts, h1, h2, namedResource, h3]

/-! ## Descriptions -/

theorem describes_iff {s : Surroundings} {t : Table} {ctx : List SectionType} {ns : List Node} : ∀ {x : State} {vs : List Warning} {d : Data},
    steps (fun n d => description s n ⟨ctx, d⟩) ns (data x vs) = .ok d ↔
      ∃ e, Describes (s.world t) x.resource.description ns e ∧ d = data { x with resource := { x.resource with description := e } } vs := by
  have step : ∀ {n : Node} {x : State} {vs : List Warning} {d : Data}, description s n ⟨ctx, data x vs⟩ = .ok d ↔
      ∃ v d', Trimmed (ByteBuffer.mapBytesRangeSet n.sourceMap s.source) v ∧ Follows x.resource.description v d' ∧
        d = data { x with resource := { x.resource with description := d' } } vs := by
    intro n x vs d
    unfold description data
    simp only
    by_cases he : x.resource.description = []
    · rw [if_pos (by simpa using he)]
      simp only [List.nil_append]
      constructor
      · intro h; cases h
        exact ⟨_, _, trim_iff.mp rfl, by rw [he]; exact .first, rfl⟩
      · rintro ⟨s, d', h1, h2, rfl⟩
        rw [he] at h2
        cases h2 with
        | first => rw [← trim_iff] at h1; rw [h1]
        | next h => exact absurd rfl h
    · rw [if_neg (by simpa using he)]
      constructor
      · intro h
        cases ht : twoNewLines x.resource.description with
        | none => rw [ht] at h; cases h
        | some r =>
          rw [ht] at h
          cases h
          have hne : ¬ (x.resource.description = [] ∨ x.resource.description = [asc '\n']) := by rw [← Payload.twoNewLines_none, ht]; simp
          rw [not_or] at hne
          refine ⟨_, _, trim_iff.mp rfl, .next hne.1 hne.2, ?_⟩
          rw [Payload.twoNewLines_closed ht]
      · rintro ⟨s, d', h1, h2, rfl⟩
        rw [← trim_iff] at h1
        generalize hd : x.resource.description = y at h2 he
        cases h2 with
        | first => exact absurd rfl he
        | next h h' =>
          cases ht : twoNewLines y with
          | none => rcases Payload.twoNewLines_none.mp ht with h | h <;> contradiction
          | some r => simp only; rw [h1, Payload.twoNewLines_closed ht]
  induction ns with
  | nil =>
    intro a vs d
    rw [steps]
    constructor
    · intro h; cases h; exact ⟨_, .nil, rfl⟩
    · rintro ⟨e, h, rfl⟩; cases h; rfl
  | cons n ns ih =>
    intro a vs d
    rw [steps]
    constructor
    · intro h
      split at h
      · cases h
      · rename_i d₁ h1
        obtain ⟨s, d', h2, h3, rfl⟩ := step.mp h1
        obtain ⟨e, h4, rfl⟩ := ih.mp h
        exact ⟨e, .cons h2 h3 h4, rfl⟩
    · rintro ⟨e, h, rfl⟩
      cases h with
      | cons h2 h3 h4 =>
        rw [step.mpr ⟨_, _, h2, h3, rfl⟩]
        simp only
        rw [ih.mpr ⟨_, h4, rfl⟩]

/-! ## Models -/

theorem known_iff {t : Table} {name : Bytes} : Known t name ↔ t.find name ≠ none := by
  unfold Known Table.find
  induction t with
  | nil => simp
  | cons e t ih =>
    obtain ⟨k, p⟩ := e
    rw [List.lookup_cons]
    by_cases h : name = k
    · subst h; simp
    · have : (name == k) = false := by simpa using h
      simp only [this, List.mem_cons, Prod.mk.injEq, h, false_and, false_or]
      exact ih

theorem named_iff {name : Bytes} {p q : References.Payload} : Named name p q ↔ q = named name p := by
  unfold named
  constructor
  · intro h
    cases h with
    | own h => rw [if_neg (by simp [h])]
    | resource h =>
      split
      · rfl
      · rename_i hn
        simp only [h, List.isEmpty_nil, Bool.true_and, Bool.not_eq_true, Bool.not_eq_false', List.isEmpty_iff] at hn
        rw [hn]; cases p; simp_all
  · rintro rfl
    by_cases h : p.name = []
    · split
      · exact .resource h
      · rename_i hn
        simp only [h, List.isEmpty_nil, Bool.true_and, Bool.not_eq_true, Bool.not_eq_false', List.isEmpty_iff] at hn
        have : p = { p with name := name } := by rw [hn]; cases p; simp_all
        conv => arg 3; rw [this]
        exact .resource h
    · rw [if_neg (by simp [h])]; exact .own h

theorem shadows_iff {r : Resource} {b : List Warning} : Shadows r b ↔ b = if r.model.name.isEmpty then [] else [.overshadowing r.name r.uri] := by
  constructor
  · intro h
    cases h with
    | yes h => rw [if_neg (by simp [h])]
    | no h => rw [if_pos (by simp [h])]
  · rintro rfl
    split
    · rename_i h; exact .no (by simpa using h)
    · rename_i h; exact .yes (by simpa using h)

theorem defines_iff {uri : Bytes} {t t' : Table} {e e' : Option Problem} {q : References.Payload} : Defines uri t e q t' e' ↔
    t' = (match t.find q.name with | none => t ++ [(q.name, q)] | some _ => t) ∧
    e' = (match t.find q.name with
      | none => if q.name.isEmpty then some (.nameless uri) else e
      | some _ => some (.defined q.name)) := by
  constructor
  · intro h
    cases h with
    | new h1 h2 =>
      rw [known_iff, Decidable.not_not] at h1
      rw [h1]; simp [h2]
    | nameless h1 h2 =>
      rw [known_iff, Decidable.not_not] at h1
      rw [h1]; simp [h2]
    | again h1 =>
      rw [known_iff] at h1
      cases hf : t.find q.name with
      | none => exact absurd hf h1
      | some p => exact ⟨rfl, rfl⟩
  · rintro ⟨rfl, rfl⟩
    cases hf : t.find q.name with
    | none =>
      have h1 : ¬ Known t q.name := by rw [known_iff, hf]; simp
      simp only
      split
      · rename_i h; exact .nameless h1 (by simpa using h)
      · rename_i h; exact .new h1 (by simpa using h)
    | some p =>
      have h1 : Known t q.name := by rw [known_iff, hf]; simp
      exact .again h1

theorem rebodied_iff {name body : Bytes} {t : Table} : ∀ {t' : Table}, Rebodied name body t t' ↔ t' = replaceBody name body t := by
  unfold replaceBody
  induction t with
  | nil =>
    intro t'
    constructor
    · intro h; cases h; rfl
    · rintro rfl; exact .nil
  | cons e t ih =>
    intro t'
    obtain ⟨k, p⟩ := e
    rw [List.map_cons]
    constructor
    · intro h
      cases h with
      | this h => rw [ih.mp h]; simp
      | other hk h => rw [ih.mp h]; simp [hk]
    · rintro rfl
      by_cases hk : k = name
      · subst hk
        simp only [if_true]
        exact .this (ih.mpr rfl)
      · simp only [hk, if_false]
        exact .other hk (ih.mpr rfl)

/-! ## Actions -/

theorem sameMethod_iff {r : Resource} {a : Action} {b : List Warning} : SameMethod r a b ↔
    b = if r.actions.any (matchAction · a) then [.duplicateMethod a.method r.uri] else [] := by
  have e : (r.actions.any (matchAction · a)) = true ↔ ∃ b ∈ r.actions, b.uri = a.uri ∧ b.method = a.method := by
    simp [List.any_eq_true, matchAction]
  constructor
  · intro h
    cases h with
    | yes h => rw [if_pos (e.mpr h)]
    | no h => rw [if_neg (fun h' => h (e.mp h'))]
  · rintro rfl
    split
    · rename_i h; exact .yes (e.mp h)
    · rename_i h; exact .no fun h' => h (e.mpr h')

theorem sameRelation_iff {r : Resource} {a : Action} {b : List Warning} : SameRelation r a b ↔
    b = if r.actions.any (matchRelation · a.relation) then [.duplicateRelation a.relation r.uri] else [] := by
  have e : (r.actions.any (matchRelation · a.relation)) = true ↔ a.relation ≠ [] ∧ ∃ b ∈ r.actions, b.relation = a.relation := by
    simp only [List.any_eq_true, matchRelation, Bool.and_eq_true, Bool.not_eq_eq_eq_not, Bool.not_true, List.isEmpty_eq_false_iff, beq_iff_eq]
    constructor
    · rintro ⟨b, h1, ⟨h2, h3⟩, h4⟩; exact ⟨h3, b, h1, h4⟩
    · rintro ⟨h3, b, h1, h4⟩; exact ⟨b, h1, ⟨by rw [h4]; exact h3, h3⟩, h4⟩
  constructor
  · intro h
    cases h with
    | yes h1 h2 => rw [if_pos (e.mpr ⟨h1, h2⟩)]
    | no h => rw [if_neg (fun h' => h (e.mp h'))]
  · rintro rfl
    split
    · rename_i h; exact .yes (e.mp h).1 (e.mp h).2
    · rename_i h; exact .no fun h' => h (e.mpr h')

theorem misfits_iff {r : Resource} {a : Action} {ws : List Action.Warning} : Misfits r a ws ↔
    ws = if !a.parameters.isEmpty && a.uri.isEmpty then Action.eligibility r.uri a.parameters else [] := by
  constructor
  · intro h
    cases h with
    | check h1 h2 =>
      rw [Action.notFound_iff] at h2
      subst h2
      split
      · rfl
      · rename_i h
        have : a.parameters = [] := by simpa [h1] using h
        rw [this]; rfl
    | no h => rw [if_neg (by simp [h])]
  · rintro rfl
    by_cases h : a.uri = []
    · refine .check h (Action.notFound_iff.mpr ?_)
      split
      · rfl
      · rename_i h'
        have : a.parameters = [] := by simpa [h] using h'
        rw [this]; rfl
    · rw [if_neg (by simp [h])]; exact .no h

theorem check_iff {r : Resource} {a : Action} : checkAction r a =
    (if r.actions.any (matchAction · a) then [.duplicateMethod a.method r.uri] else []) ++
    (if r.actions.any (matchRelation · a.relation) then [.duplicateRelation a.relation r.uri] else []) ++
    (if !a.parameters.isEmpty && a.uri.isEmpty then Action.eligibility r.uri a.parameters else []).map .action := by
  unfold checkAction
  congr 1
  split <;> rfl

/-! ## The end -/

theorem finished_iff {x : State} {vs : List Warning} {d : Data} :
    finalize (data x vs) = d ↔ ∃ y ws, Finished x y ws ∧ d = data y (vs ++ ws) := by
  have key : finalize (data x vs) = data { x with resource := { x.resource with headers := [], actions := x.resource.actions.map fun a =>
        { a with examples := Injected x.resource.headers a.examples } } } (vs ++ (UriTemplate.warnings x.resource.uri).map .template) := by
    unfold finalize data
    simp only [Data.mk.injEq, and_true, true_and]
    obtain ⟨⟨_, _, _, _, _, _, hs, as⟩, _, _⟩ := x
    by_cases h : hs = []
    · subst h
      simp [Action.inject_nil]
    · rw [if_pos (by simpa using h)]
      rfl
  rw [key]
  constructor
  · rintro rfl; exact ⟨_, _, .mk rfl, rfl⟩
  · rintro ⟨y, ws, h, rfl⟩
    cases h with
    | mk h => subst h; rfl

end Verif.Resource
