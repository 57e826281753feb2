import Verif.Proof.Group
import Verif.Props.C87

/-!
# C88: a group of resources, exactly

`C88_group` characterises the parser of groups by the specification of `Spec/Group.lean`; `C88_one`: the specification leaves no choice; `C88_stops`: the only
way not to read a group is that of C87.
-/

namespace Verif.Props
open Verif Verif.Text Verif.Regex Verif.Section Verif.Recognition Verif.Spec Verif.Spec.Recognition Verif.Spec.Payload Verif.Spec.Group
open Verif.Group (Element Warning Surroundings Data parseGroup groupResult group_parse read_iff result_suffix)
open Verif.Payload (landing)
open Verif.Resource (Problem resourceResult)
open Verif.References (Table)

/-- C88: what a header and the blocks after it give, what is reported, and which blocks are left is what `GroupRead` says. -/
theorem C88_group (s : Surroundings) (context : List SectionType) (siblings : List Node) (i : Nat) (sig : Node)
    (table : Table) (error : Option Problem) (hi : siblings[i]? = some sig) (hk : sig.kind = .header) (j : Nat) (pd : PD Data) :
    parseGroup s context siblings i table error = .ok (j, pd) ↔
      ∃ rest name x ws, GroupRead s table error sig (siblings.drop (i + 1)) rest name x ws ∧ j + rest.length = siblings.length ∧
        pd = ⟨context, ⟨name, x.elements, ws, x.table, x.error⟩⟩ := by
  have hlt : i < siblings.length := (List.getElem?_eq_some_iff.mp hi).1
  rw [group_parse s context table error hi hk]
  constructor
  · intro h
    cases hq : groupResult s context table error sig (siblings.drop (i + 1)) with
    | error e => rw [hq] at h; cases h
    | ok d =>
      obtain ⟨rest, d⟩ := d
      rw [hq] at h
      have hs := (result_suffix hq).length_le
      rw [List.length_cons, List.length_drop] at hs
      cases h
      obtain ⟨name, x, ws, h1, rfl⟩ := (read_iff (s := s)).mp hq
      exact ⟨rest, name, x, ws, h1, by omega, rfl⟩
  · rintro ⟨rest, name, x, ws, h, hj, rfl⟩
    rw [(read_iff (s := s)).mpr ⟨name, x, ws, h, rfl⟩]
    simp only [landing]
    rw [← hj, Nat.add_sub_cancel]
    rfl

/-- C88: so there is one name, one list of elements, one table of models, one error and one list of warnings at most that `GroupRead` allows, and one end;
and the blocks that are left are the last ones. -/
theorem C88_one (s : Surroundings) (table : Table) (error : Option Problem) (sig : Node) (blocks rest rest' : List Node) (name name' : Bytes)
    (x y : Spec.Group.State) (vs ws : List Warning) (h : GroupRead s table error sig blocks rest name x vs)
    (h' : GroupRead s table error sig blocks rest' name' y ws) :
    rest = rest' ∧ name = name' ∧ x = y ∧ vs = ws ∧ ∃ pre, sig :: blocks = pre ++ rest := by
  have e1 := (read_iff (s := s) (ctx := [])).mpr ⟨name, x, vs, h, rfl⟩
  have e2 := (read_iff (s := s) (ctx := [])).mpr ⟨name', y, ws, h', rfl⟩
  obtain ⟨pre, hp⟩ := result_suffix e1
  rw [e1] at e2
  simp only [Except.ok.injEq, Prod.mk.injEq, Group.data, Data.mk.injEq] at e2
  obtain ⟨h1, h2, h3, h4, h5, h6⟩ := e2
  refine ⟨h1, h2, ?_, h4, pre, hp.symm⟩
  cases x; cases y
  simp_all

/-- C88: a header of a resource is always read: the group takes at least one block. -/
theorem C88_takes (s : Surroundings) (table : Table) (error : Option Problem) (sig : Node) (blocks rest : List Node) (name : Bytes)
    (x : Spec.Group.State) (vs : List Warning) (h : GroupRead s table error sig blocks rest name x vs) : ∃ pre, blocks = pre ++ rest := by
  cases h with
  | resources h1 h2 =>
    cases h2 with
    | closed h => exact absurd h1 (Group.closes_not h).1
    | action h => exact absurd h1 h
    | ignored h => exact absurd h1 h
    | resource _ h3 h4 h5 =>
      obtain ⟨_, _, _, p, rfl⟩ := C87_one _ _ _ _ _ _ _ _ _ _ _ _ h3 h3
      have hq := (Group.sections_iff (s := s) (ctx := []) (name := []) (last := .undefined) (vs := []) (Nat.le_refl _)).mpr ⟨_, _, h5, rfl⟩
      obtain ⟨q, rfl⟩ := Payload.run_suffix Group.section_suffix _ _ _ _ _ _ hq
      exact ⟨p ++ q, by simp⟩
  | group h1 h2 h3 h4 h5 =>
    have hq := (Group.sections_iff (s := s) (ctx := []) (name := []) (last := .undefined) (vs := []) (Nat.le_refl _)).mpr ⟨_, _, h5, rfl⟩
    obtain ⟨q, rfl⟩ := Payload.run_suffix Group.section_suffix _ _ _ _ _ _ hq
    obtain ⟨rfl, _⟩ := h3
    exact ⟨_ ++ q, by simp; rfl⟩

/-- In a list of sections: an action is reported if there is no resource yet, and then the first block is not the header of a resource. -/
theorem sections_reported {s : Surroundings} {x y : Spec.Group.State} {ns rest : List Node} {ws : List Warning} (h : Sections s x ns rest y ws) :
    ∀ {m u : Bytes}, .unexpectedAction m u ∈ ws → u = [] ∧ (∀ r, .resource r ∉ x.elements) ∧ ∃ n l, ns = n :: l ∧ ¬ ResourceHeader n ∧ ¬ Closes n := by
  have none {v : List Payload.Warning} {m u : Bytes} : Warning.unexpectedAction m u ∉ v.map (fun w => Warning.resource (.action (.payload w))) := by
    rw [List.mem_map]; rintro ⟨_, _, h⟩; cases h
  induction h with
  | done => intro m u h; cases h
  | closed => intro m u h; cases h
  | resource h1 h2 h3 h4 ih =>
    intro m u h
    rw [List.mem_append, List.mem_append] at h
    rcases h with (h | h) | h
    · rw [List.mem_map] at h; obtain ⟨_, _, h⟩ := h; cases h
    · cases h3 with
      | yes => rw [List.mem_singleton] at h; cases h
      | no => cases h
    · exact absurd (List.mem_append_right _ (.head _)) ((ih h).2.1 _)
  | action h1 h2 h3 h4 h5 ih =>
    intro m u h
    refine ⟨?_, h3, _, _, rfl, h1, fun h => absurd h2 (Group.closes_not h).2⟩
    cases h with
    | head => rfl
    | tail _ h => exact (ih h).1
  | ignored h1 h2 h3 h4 h5 ih =>
    intro m u h
    rw [List.mem_append] at h
    rcases h with h | h
    · exact absurd h none
    · exact ⟨(ih h).1, (ih h).2.1, _, _, rfl, h1, h2⟩

/-- C88: an action without a resource is reported without the URI, and only if a header `METHOD/uri`, without a blank between the two, comes before it: all other
headers of actions before the first resource are part of the description, and nothing is reported. -/
theorem C88_reported (s : Surroundings) (table : Table) (error : Option Problem) (sig : Node) (blocks rest : List Node) (name : Bytes)
    (x : Spec.Group.State) (vs : List Warning) (h : GroupRead s table error sig blocks rest name x vs) (m u : Bytes)
    (hw : .unexpectedAction m u ∈ vs) : u = [] ∧ ∃ pre n post, blocks = pre ++ n :: post ∧ (∀ b ∈ pre, ¬ ResourceHeader b) ∧
      Spec.Resource.WholeHeader n ∧ ¬ ResourceHeader n := by
  cases h with
  | resources h1 h2 =>
    obtain ⟨_, _, n, l, h, h3, _⟩ := sections_reported h2 hw
    cases h
    exact absurd h1 h3
  | group h1 h2 h3 h4 h5 =>
    obtain ⟨hu, _, n, l, rfl, h6, h7⟩ := sections_reported h5 hw
    obtain ⟨rfl, h8, h9⟩ := h3
    refine ⟨hu, _, n, l, rfl, fun b hb hr => h8 b hb (.inl hr), ?_, h6⟩
    rcases h9 n rfl with h | h | h
    · exact absurd h h6
    · exact absurd h h7
    · exact h

theorem resourceResult_error {s : Resource.Surroundings} {parent : SectionType} {outer : List SectionType} {table : Table} {error : Option Problem}
    {sig : Node} {blocks : List Node} {e : Stop} (hk : sig.kind = .header) (h : resourceResult s parent outer table error sig blocks = .error e) :
    e = .outOfRange := by
  refine C87_stops s parent outer (sig :: blocks) 0 sig table error rfl hk e ?_
  rw [Resource.resource_parse s parent outer (siblings := sig :: blocks) (i := 0) table error rfl hk]
  rw [show (sig :: blocks).drop (0 + 1) = blocks from rfl, h]
  rfl

theorem group_run_error {s : Surroundings} {ctx : List SectionType} {fuel : Nat} {ns : List Node} {last : SectionType} {d : Data} {e : Stop}
    (h : Payload.run (Group.sectionData s ctx) recognise.groupNested Group.go fuel ns last d = .error e) : e = .outOfRange := by
  obtain ⟨n, ns, last, d, h⟩ := run_error h
  by_cases hr : ResourceHeader n
  · rw [Group.section_resource _ _ _ hr] at h
    cases hq : resourceResult s.inner .resource ctx d.table d.error n ns with
    | error e' => rw [hq] at h; cases h; exact resourceResult_error hr.1 hq
    | ok r => rw [hq] at h; cases h
  · rw [Group.section_other _ _ _ hr] at h
    unfold Group.unexpected at h
    split at h <;> cases h

/-- C88: a group that cannot be read stops the parser out of range (C85), and not in any other way. -/
theorem C88_stops (s : Surroundings) (context : List SectionType) (siblings : List Node) (i : Nat) (sig : Node)
    (table : Table) (error : Option Problem) (hi : siblings[i]? = some sig) (hk : sig.kind = .header) (e : Stop)
    (h : parseGroup s context siblings i table error = .error e) : e = .outOfRange := by
  rw [group_parse s context table error hi hk] at h
  cases hq : groupResult s context table error sig (siblings.drop (i + 1)) with
  | ok d => rw [hq] at h; cases h
  | error e' =>
    rw [hq] at h
    cases h
    unfold groupResult Payload.runResult at hq
    split at hq
    · split at hq
      · rename_i h'; cases hq; exact group_run_error h'
      · cases hq
    · split at hq
      · rename_i h'
        cases hq
        obtain ⟨m, _, d', h'⟩ := steps_error h'
        rw [Group.description_eq] at h'
        split at h'
        · cases h'; rfl
        · cases h'
      · split at hq
        · rename_i h'; cases hq; exact group_run_error h'
        · cases hq

/-! ## Examples -/

/-- What the parser gives: the group, the warnings, the table, the error, and the blocks that are left. -/
def groupOf (source : Bytes) (siblings : List Node) : Option (Data × Nat) :=
  match parseGroup ⟨plainSurroundings source, fun _ => false⟩ [.resourceGroup] siblings 0 [] none with
  | .ok (j, pd) => some (pd.data, siblings.length - j)
  | .error _ => none

/-- A group with a description and two resources with one URI, and the next group. -/
example : groupOf (str "d") [header "Group A", para "d", header "/a", header "B [/a]", header "Group C", header "/c"] =
    some (⟨str "A", [.copy (str "d"), .resource { uri := str "/a" }, .resource { name := str "B", uri := str "/a" }],
      [.duplicateResource (str "/a")], [], none⟩, 2) := by
  decide +kernel

/-- A resource without a group. -/
example : groupOf [] [header "/a", header "Group C"] = some (⟨[], [.resource { uri := str "/a" }], [], [], none⟩, 1) := by
  decide +kernel

/-- An action without a resource is text, and nothing is reported. -/
example : groupOf [] [header "Group A", header "GET", code "x", header "/a"] =
    some (⟨str "A", [.copy [], .resource { uri := str "/a" }], [], [], none⟩, 0) := by
  decide +kernel

/-- It is reported here. -/
example : groupOf [] [header "Group A", header "GET/a", header "PUT"] =
    some (⟨str "A", [], [.resource (.action (.payload .unexpectedHeader)), .unexpectedAction (str "PUT") []], [], none⟩, 0) := by
  decide +kernel

end Verif.Props
