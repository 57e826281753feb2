import Verif.Proof.Action
import Verif.Props.C85

/-!
# C86: an action, exactly

All parts of the action and all warnings, in their order, in terms of its blocks (`Spec/Action.lean`).
-/

namespace Verif.Props
open Verif Verif.Text Verif.Section Verif.Recognition Verif.Spec Verif.Spec.Recognition Verif.Spec.Payload Verif.Spec.Action Verif.Action
open Verif.Payload (World steps outcome)

/-- C86: what a header and the blocks up to the next header of an action, a resource, a group or the data structures (or a model) give, and
what is reported, is what `ActionRead` says; exactly these blocks are read. -/
theorem C86_action (w : World) (parent : SectionType) (outer : List SectionType) (siblings : List Node) (i : Nat) (sig : Node)
    (blocks post : List Node) (hi : siblings[i]? = some sig) (hk : sig.kind = .header) (hb : Until Ends (siblings.drop (i + 1)) blocks post)
    (j : Nat) (pd : PD Data) :
    parseAction w (parent :: outer) siblings i = .ok (j, pd) ↔
      j = i + 1 + blocks.length ∧ ∃ a ws, ActionRead w parent sig blocks a ws ∧ pd = ⟨parent :: outer, ⟨a, ws⟩⟩ := by
  obtain ⟨rfl, -⟩ := (Payload.until_iff go_iff).mp hb
  have hg : ∀ n ∈ (siblings.drop (i + 1)).takeWhile go, go n = true := fun n hn => mem_takeWhile_imp hn
  rw [action_parse w parent outer hi hk]
  constructor
  · intro h
    cases hq : actionResult w parent outer sig ((siblings.drop (i + 1)).takeWhile go) with
    | error e => rw [hq] at h; cases h
    | ok d =>
      rw [hq] at h
      cases h
      obtain ⟨a, ws, h1, rfl⟩ := (Action.read_iff hg).mp hq
      exact ⟨rfl, a, ws, h1, rfl⟩
  · rintro ⟨rfl, a, ws, h, rfl⟩
    rw [(Action.read_iff hg).mpr ⟨a, ws, h, rfl⟩]

/-- C86: so there is one action and one list of warnings at most that `ActionRead` allows. -/
theorem C86_one (w : World) (parent : SectionType) (sig : Node) (blocks : List Node) (a b : Action) (vs ws : List Action.Warning)
    (hb : ∀ n ∈ blocks, ¬ Ends n) (h : ActionRead w parent sig blocks a vs) (h' : ActionRead w parent sig blocks b ws) : a = b ∧ vs = ws := by
  have hg : ∀ n ∈ blocks, go n = true := fun n hn => (go_iff n).mpr (hb n hn)
  have e1 := (Action.read_iff (outer := []) hg).mpr ⟨a, vs, h, rfl⟩
  have e2 := (Action.read_iff (outer := []) hg).mpr ⟨b, ws, h', rfl⟩
  rw [e1] at e2
  cases e2
  exact ⟨rfl, rfl⟩

theorem action_error {w : World} {parent : SectionType} {outer : List SectionType} {n : Node} {last : SectionType} {d : Data} {e : Stop}
    (h : Action.sectionData w parent outer n last d = .error e) : e = .outOfRange := by
  by_cases hn : ActionPart n
  · obtain ⟨t, hs⟩ := hn
    obtain ⟨sig, blocks, hp⟩ := section_parts hs
    have pay : IsRequest t ∨ IsResponse t → e = .outOfRange := by
      intro ht
      rw [sectionData_payload _ _ hs ht hp] at h
      unfold payloadData at h
      cases hc : Payload.payloadResult w t (parent :: outer) sig blocks with
      | ok r => rw [hc] at h; cases h
      | error e' =>
        rw [hc] at h
        cases h
        refine (C85_stops w t (parent :: outer) [n] 0 n sig blocks (payload_types ht) rfl hp e ?_).1
        rw [Payload.payload_parse w t (parent :: outer) (siblings := [n]) (i := 0) rfl (Payload.parts_iff.mp hp).1 (Payload.parts_iff.mp hp).2, hc]
        rfl
    have ht := (section_iff (section_type hs)).mpr hs
    have hr := (Payload.parts_iff.mp hp).2
    have hs' := hs
    cases hs' with
    | relation => unfold Action.sectionData at h; rw [ht, hr] at h; cases h
    | parameters => unfold Action.sectionData at h; rw [ht, hr] at h; cases h
    | headers => unfold Action.sectionData at h; rw [ht, hr] at h; cases h
    | attributes => unfold Action.sectionData at h; rw [ht, hr] at h; cases h
    | request => exact pay (.inl (.inl rfl))
    | shortRequest => exact pay (.inl (.inr rfl))
    | response => exact pay (.inr (.inl rfl))
    | shortResponse => exact pay (.inr (.inr rfl))
  · rw [sectionData_other _ _ hn] at h
    have hd : ∀ {ctx}, dangling w last ctx n = .error e → e = .outOfRange := by
      intro ctx h
      unfold dangling at h
      split at h
      · cases h; rfl
      · cases h
    unfold actionUnexpected at h
    simp only at h
    split at h
    · split at h
      · rename_i h'; cases h; exact hd h'
      · cases h
    · split at h
      · split at h
        · rename_i h'; cases h; exact hd h'
        · cases h
      · split at h <;> cases h

/-- C86: an action that cannot be read stops the parser out of range (C85), and not in any other way. -/
theorem C86_stops (w : World) (parent : SectionType) (outer : List SectionType) (siblings : List Node) (i : Nat) (sig : Node)
    (hi : siblings[i]? = some sig) (hk : sig.kind = .header) (e : Stop)
    (h : parseAction w (parent :: outer) siblings i = .error e) : e = .outOfRange := by
  rw [action_parse w parent outer hi hk] at h
  cases hq : actionResult w parent outer sig ((siblings.drop (i + 1)).takeWhile go) with
  | ok d => rw [hq] at h; cases h
  | error e' =>
    rw [hq] at h
    cases h
    unfold actionResult Payload.headerResult at hq
    split at hq
    · rename_i h'; cases h'
    · split at hq
      · rename_i h'
        cases hq
        obtain ⟨m, _, d', h'⟩ := steps_error h'
        unfold actionDescription at h'
        simp only at h'
        split at h'
        · cases h'; rfl
        · cases h'
      · split at hq
        · rename_i h'
          cases hq
          obtain ⟨m, _, _, _, h'⟩ := loop_error h'
          exact action_error h'
        · cases hq

/-! ## Examples -/

/-- An action with a description, a request and its response, and the next action. -/
def actionBlocks : List Node := [para "d", listItem [para "Request A", code "x"], listItem [para "Response 201", code "y"]]
def actionNodes : List Node := header "GET" :: actionBlocks ++ [header "PUT"]

example : (match parseAction { plainWorld with source := str "d" } [.resource] actionNodes 0 with
    | .ok (j, pd) => some (j, pd.data.action, pd.data.warnings)
    | .error _ => none) =
    some (4, { method := str "GET", description := str "d", examples := [⟨[{ name := str "A", body := str "x" }], [{ name := str "201", body := str "y" }]⟩] }, []) := by
  decide +kernel

/-- The blocks that C86_action is about. -/
example : Until Ends (actionNodes.drop 1) actionBlocks [header "PUT"] := by
  have h : actionBlocks.all go = true ∧ go (header "PUT") = false := by decide +kernel
  refine ⟨rfl, fun n hn => (go_iff n).mp (List.all_eq_true.mp h.1 n hn), ?_⟩
  rintro n ⟨⟩
  refine Classical.byContradiction fun hn => ?_
  rw [← go_iff, h.2] at hn
  cases hn

end Verif.Props
