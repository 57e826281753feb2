import Verif.Proof.Resource
import Verif.Props.C86

/-!
# C87: a resource, exactly

All parts of the resource, the models that are defined, the error and all warnings, in their order, in terms of its blocks
(`Spec/Resource.lean`).
-/

namespace Verif.Props
open Verif Verif.Text Verif.Section Verif.Recognition Verif.Spec Verif.Spec.Recognition Verif.Spec.Payload Verif.Spec.Resource Verif.Resource
open Verif.Payload (steps run landing)
open Verif.Action (actionResult)
open Verif.References (Table)

/-- C87: what a header and the blocks after it give, what is reported, and which blocks are left is what `ResourceRead` says. -/
theorem C87_resource (s : Surroundings) (parent : SectionType) (outer : List SectionType) (siblings : List Node) (i : Nat) (sig : Node)
    (table : Table) (error : Option Problem) (hi : siblings[i]? = some sig) (hk : sig.kind = .header) (j : Nat) (pd : PD Data) :
    parseResource s (parent :: outer) siblings i table error = .ok (j, pd) ↔
      ∃ rest x ws, ResourceRead s parent table error sig (siblings.drop (i + 1)) rest x ws ∧ j + rest.length = siblings.length ∧
        pd = ⟨parent :: outer, ⟨x.resource, ws, x.table, x.error⟩⟩ := by
  rw [resource_parse s parent outer table error hi hk]
  constructor
  · intro h
    cases hq : resourceResult s parent outer table error sig (siblings.drop (i + 1)) with
    | error e => rw [hq] at h; cases h
    | ok d =>
      obtain ⟨rest, d⟩ := d
      rw [hq] at h
      have hs := (result_suffix hq).length_le
      rw [List.length_drop] at hs
      cases h
      obtain ⟨x, ws, h1, rfl⟩ := (read_iff (s := s)).mp hq
      exact ⟨rest, x, ws, h1, by omega, rfl⟩
  · rintro ⟨rest, x, ws, h, hj, rfl⟩
    rw [(read_iff (s := s)).mpr ⟨x, ws, h, rfl⟩]
    simp only [landing]
    rw [← hj, Nat.add_sub_cancel]
    rfl

/-- C87: so there is one resource, one table of models, one error and one list of warnings at most that `ResourceRead` allows, and one end; and the
blocks that are left are the last ones. -/
theorem C87_one (s : Surroundings) (parent : SectionType) (table : Table) (error : Option Problem) (sig : Node) (blocks rest rest' : List Node)
    (x y : Spec.Resource.State) (vs ws : List Resource.Warning) (h : ResourceRead s parent table error sig blocks rest x vs)
    (h' : ResourceRead s parent table error sig blocks rest' y ws) :
    rest = rest' ∧ x = y ∧ vs = ws ∧ ∃ pre, blocks = pre ++ rest := by
  have e1 := (read_iff (s := s) (outer := [])).mpr ⟨x, vs, h, rfl⟩
  have e2 := (read_iff (s := s) (outer := [])).mpr ⟨y, ws, h', rfl⟩
  obtain ⟨pre, hp⟩ := result_suffix e1
  rw [e1] at e2
  simp only [Except.ok.injEq, Prod.mk.injEq, Resource.data, Data.mk.injEq] at e2
  obtain ⟨h1, h2, h3, h4, h5⟩ := e2
  refine ⟨h1, ?_, h3, pre, hp.symm⟩
  cases x; cases y
  simp_all

theorem model_error {s : Surroundings} {parent : SectionType} {outer : List SectionType} {n : Node} {last : SectionType} {d : Data} {e : Stop}
    (hna : ¬ ActionHeader n) (h : partData s parent outer n last d = .error e) : e = .outOfRange := by
  by_cases hn : ResourcePart n
  · obtain ⟨t, hs⟩ := hn
    have hta : t ≠ .action := by rintro rfl; cases hs; exact hna ‹_›
    obtain ⟨sig, blocks, hp⟩ := Resource.section_parts hs hta
    have mod : t = .model ∨ t = .modelBody → e = .outOfRange := by
      intro ht
      rw [partData_model _ _ hs ht hp] at h
      unfold modelData at h
      cases hc : Payload.payloadResult (s.world d.table) t (parent :: outer) sig blocks with
      | ok r => rw [hc] at h; cases h
      | error e' =>
        rw [hc] at h
        cases h
        refine (C85_stops (s.world d.table) t (parent :: outer) [n] 0 n sig blocks (Resource.payload_types ht) rfl hp e ?_).1
        rw [Payload.payload_parse (s.world d.table) t (parent :: outer) (siblings := [n]) (i := 0) rfl (Payload.parts_iff.mp hp).1
          (Payload.parts_iff.mp hp).2, hc]
        rfl
    have ht := (Resource.section_iff (Resource.section_type hs)).mpr hs
    have hr := (Payload.parts_iff.mp hp).2
    have hs' := hs
    cases hs' with
    | parameters => unfold partData at h; rw [ht, hr] at h; cases h
    | headers => unfold partData at h; rw [ht, hr] at h; cases h
    | model => exact mod (.inl rfl)
    | shortModel => exact mod (.inr rfl)
    | attributes => unfold partData at h; rw [ht, hr] at h; cases h
    | action => exact absurd rfl hta
  · rw [partData_other _ _ hn] at h
    unfold Resource.unexpected at h
    simp only at h
    split at h
    · split at h
      · rename_i h'
        cases h
        unfold Action.dangling at h'
        split at h'
        · cases h'; rfl
        · cases h'
      · cases h
    · cases h

theorem run_error {σ : Type} {F : Node → List Node → SectionType → σ → Except Stop (List Node × σ)} {ty : Node → SectionType}
    {go : Node → Bool} {e : Stop} : ∀ {fuel : Nat} {ns : List Node} {last : SectionType} {d : σ}, run F ty go fuel ns last d = .error e →
    ∃ n ns last d, F n ns last d = .error e := by
  intro fuel
  induction fuel with
  | zero => intro ns last d h; rw [run] at h; cases h
  | succ fuel ih =>
    intro ns last d h
    cases ns with
    | nil => rw [run] at h; cases h
    | cons n ns =>
      rw [run] at h
      split at h
      · cases hf : F n ns last d with
        | error e' => rw [hf] at h; cases h; exact ⟨_, _, _, _, hf⟩
        | ok x => obtain ⟨r, d₁⟩ := x; rw [hf] at h; exact ih h
      · cases h

theorem actionResult_error {w : Payload.World} {parent : SectionType} {outer : List SectionType} {sig : Node} {blocks : List Node} {e : Stop}
    (hk : sig.kind = .header) (h : actionResult w parent outer sig (blocks.takeWhile Action.go) = .error e) : e = .outOfRange := by
  refine C86_stops w parent outer (sig :: blocks) 0 sig rfl hk e ?_
  rw [Action.action_parse w parent outer (siblings := sig :: blocks) (i := 0) rfl hk]
  rw [show (sig :: blocks).drop (0 + 1) = blocks from rfl, h]

/-- C87: a resource that cannot be read stops the parser out of range (C85), and not in any other way. -/
theorem C87_stops (s : Surroundings) (parent : SectionType) (outer : List SectionType) (siblings : List Node) (i : Nat) (sig : Node)
    (table : Table) (error : Option Problem) (hi : siblings[i]? = some sig) (hk : sig.kind = .header) (e : Stop)
    (h : parseResource s (parent :: outer) siblings i table error = .error e) : e = .outOfRange := by
  rw [resource_parse s parent outer table error hi hk] at h
  cases hq : resourceResult s parent outer table error sig (siblings.drop (i + 1)) with
  | ok d => rw [hq] at h; cases h
  | error e' =>
    rw [hq] at h
    cases h
    unfold resourceResult redirectResult Payload.runResult at hq
    simp only at hq
    split at hq
    · split at hq
      · rename_i h'; cases hq; exact actionResult_error hk h'
      · cases hq
    · split at hq
      · rename_i h'
        cases hq
        obtain ⟨m, _, d', h'⟩ := steps_error h'
        unfold Resource.description at h'
        simp only at h'
        split at h'
        · cases h'; rfl
        · cases h'
      · split at hq
        · rename_i h'
          cases hq
          obtain ⟨m, ns, last, d', h'⟩ := run_error h'
          by_cases ha : ActionHeader m
          · rw [Resource.section_action _ _ _ ha] at h'
            unfold actionData at h'
            split at h'
            · rename_i h''; cases h'; exact actionResult_error ha.1 h''
            · cases h'
          · rw [Resource.section_other _ _ _ ha] at h'
            cases hp : partData s parent outer m last d' with
            | error e' => rw [hp] at h'; cases h'; exact model_error ha hp
            | ok r => rw [hp] at h'; cases h'
        · cases hq

/-! ## Examples -/

/-- No attributes, no parameters and no named types. -/
def plainSurroundings (source : Bytes) : Surroundings := ⟨source, fun _ _ x => (x, []), fun _ x => (x, []), fun _ => false⟩

/-- What the parser gives: the resource, the warnings, the table, the error, and the blocks that are left. -/
def resourceOf (s : Surroundings) (siblings : List Node) (table : Table) : Option (Data × Nat) :=
  match parseResource s [.resource] siblings 0 table none with
  | .ok (j, pd) => some (pd.data, siblings.length - j)
  | .error _ => none

/-- A resource with a model and an action, and the next resource. -/
def resourceNodes : List Node :=
  [header "A [/a]", para "d", listItem [para "Model", code "x"], header "GET", listItem [para "Response 200", code "y"], header "B [/b]", para "e"]

example : resourceOf (plainSurroundings (str "d")) resourceNodes [] =
    some (⟨{ name := str "A", uri := str "/a", description := str "d", model := { name := str "A", body := str "x" }
             actions := [{ method := str "GET", examples := [⟨[], [{ name := str "200", body := str "y" }]⟩] }] }, [],
      [(str "A", { name := str "A", body := str "x" })], none⟩, 2) := by
  decide +kernel

/-- The header of the resource is that of its action. -/
example : resourceOf (plainSurroundings []) [header "GET /a", listItem [para "Response 200", code "y"], header "GET"] [] =
    some (⟨{ uri := str "/a", actions := [{ method := str "GET", examples := [⟨[], [{ name := str "200", body := str "y" }]⟩] }] }, [],
      [], none⟩, 1) := by
  decide +kernel

/-- Text after a model whose name is taken is put into the body of the *other* model too (S/ResourceParser.h:171-180). -/
example : resourceOf (plainSurroundings (str "t")) [header "A [/a]", listItem [para "Model", code "x"], para "t"]
      [(str "A", { name := str "A", body := str "z" })] =
    some (⟨{ name := str "A", uri := str "/a", model := { name := str "A", body := str "xt\n\n" } }, [.action (.payload (.dangling 2))],
      [(str "A", { name := str "A", body := str "xt\n\n" })], some (.defined (str "A"))⟩, 0) := by
  decide +kernel

/-- The second action has the method of the first; there is a URI in its parentheses, so it is another action. -/
example : resourceOf (plainSurroundings []) [header "A [/a]", header "GET", header "GET", header "B [GET /b]"] [] =
    some (⟨{ name := str "A", uri := str "/a", actions := [{ method := str "GET" }, { method := str "GET" },
      { name := str "B", method := str "GET", uri := str "/b" }] }, [.action (.noResponse), .action (.noResponse), .duplicateMethod (str "GET") (str "/a"), .action (.noResponse)], [], none⟩, 0) := by
  decide +kernel

end Verif.Props
