import Verif.Proof.NamedTypeSpec
import Verif.Proof.GroupKinds
import Verif.Spec.DataGroup

/-! # Groups of data structures -/

namespace Verif.DataGroup
open Verif Verif.Text Verif.Regex Verif.Section Verif.Recognition Verif.Spec Verif.Spec.Recognition Verif.Spec.Payload Verif.Props Verif.Spec.DataGroup
open Verif.MsonParser (many movedTo Suffixes headResult at_ parse_header namedMeaning named_at named_iff walk Out World)
open Verif.Spec.MsonParser (TypeRead)
open Verif.Mson (Context)
open Verif.DataStructure (NamedType)
open Verif.Payload (one ignored one_eq drop_cons strays_iff)

/-! ## Kinds of headers -/

theorem heading_values (n : Node) (h : n.kind = .header) :
    (recognise.typeSectionType n ≠ .undefined ↔ TypeHeading n) ∧ (recognise.resourceType n = .resource ↔ ResourceHeading n) ∧
    (recognise.actionSectionType n = .action ↔ ActionHeading n) ∧ (recognise.groupType n = .resourceGroup ↔ GroupHeading n) ∧
    (recognise.dataStructuresType n = .dataStructureGroup ↔ DataHeading n) := by
  have t1 := typeSection_iff n
  have no : ¬ ∃ s, ItemLine n s ∧ TypeSectionForm s := by
    rw [itemLine_iff, h]; simp
  rw [or_iff_left no] at t1
  exact ⟨t1, C74_resource n, C74_action n, C74_group n, C74_data n⟩

theorem kinds (n : Node) : (recognise.namedTypeType n ≠ .undefined ↔ TypeHeader n) ∧ (upper.contains (recognise.keyword n) = true ↔ Closes n) := by
  unfold TypeHeader Closes Recognise.namedTypeType
  by_cases hh : n.kind = .header
  · obtain ⟨e1, e2, e3, e4, e5⟩ := heading_values n hh
    rw [← e1, ← e2, ← e3, ← e4, ← e5, Action.first_header hh]
    have tv := Action.typeSection_values' n
    have v1 := ofHeader_values n (recognise.resource n.text) .resource
    have v2 := ofHeader_values n (recognise.action n.text || recognise.namedAction n.text) .action
    have v3 := ofHeader_values n (recognise.group n.text) .resourceGroup
    have v4 := ofHeader_values n (recognise.dataStructures n.text) .dataStructureGroup
    change recognise.resourceType n = _ ∨ recognise.resourceType n = _ at v1
    change recognise.actionSectionType n = _ ∨ recognise.actionSectionType n = _ at v2
    change recognise.groupType n = _ ∨ recognise.groupType n = _ at v3
    change recognise.dataStructuresType n = _ ∨ recognise.dataStructuresType n = _ at v4
    simp only [hh, true_and]
    clear e1 e2 e3 e4 e5
    generalize recognise.typeSectionType n = a at *
    generalize recognise.resourceType n = b at *
    generalize recognise.actionSectionType n = c at *
    generalize recognise.groupType n = d at *
    generalize recognise.dataStructuresType n = e at *
    simp only [List.mem_cons, List.not_mem_nil, or_false] at tv
    rcases tv with rfl | rfl | rfl | rfl <;> rcases v1 with rfl | rfl <;> rcases v2 with rfl | rfl <;> rcases v3 with rfl | rfl <;>
      rcases v4 with rfl | rfl <;> decide
  · have hc : upper.contains (recognise.keyword n) = false := by
      have := Action.not_upper hh
      cases hc : upper.contains (recognise.keyword n) with
      | false => rfl
      | true =>
        have hm : recognise.keyword n ∈ upper := by simpa using hc
        have : recognise.keyword n ∉ Action.actionUpper := by simpa using this
        exfalso; apply this
        simp only [upper, List.mem_cons, List.not_mem_nil, or_false] at hm
        rcases hm with hm | hm | hm <;> rw [hm] <;> decide
    rw [hc]
    simp [hh, ResourceHeading, GroupHeading, DataHeading]

theorem type_iff (n : Node) : recognise.namedTypeType n ≠ .undefined ↔ TypeHeader n := (kinds n).1
theorem closes_iff (n : Node) : upper.contains (recognise.keyword n) = true ↔ Closes n := (kinds n).2

theorem type_type {n : Node} (h : TypeHeader n) : recognise.namedTypeType n = .msonNamedType := by
  have h := (type_iff n).mpr h
  unfold Recognise.namedTypeType at h ⊢
  split at h
  · rename_i hc; rw [if_pos hc]
  · exact absurd rfl h

theorem type_not {n : Node} (h : ¬ TypeHeader n) : recognise.namedTypeType n = .undefined := by
  rw [← type_iff, Decidable.not_not] at h
  exact h

theorem closes_not {n : Node} (h : Closes n) : ¬ TypeHeader n := by
  rintro ⟨_, h1, h2, h3, h4, h5⟩
  rcases h with ⟨_, h | ⟨_, h | h⟩⟩
  · exact h2 h
  · exact h4 h
  · exact h5 h

theorem unexpected_iff {n : Node} : recognise.isUnexpected upper n = true ↔ ¬ Closes n := by
  rw [← closes_iff]
  unfold Recognise.isUnexpected
  cases h : upper.contains (recognise.keyword n) with
  | false => simp
  | true =>
    simp only [Bool.not_true, Bool.false_eq_true, if_false, decide_eq_true_eq, not_true_eq_false, iff_false]
    intro h'
    rw [h'] at h
    revert h; decide

/-! ## The blocks as a function -/

/-- One block of the group, with those after it. -/
def step (s : Surroundings) (n : Node) (ns : List Node) (d : Data) : Except Stop (Option (List Node) × Data) :=
  if recognise.namedTypeType n ≠ .undefined then
    match namedMeaning s.world n ns d.known with
    | .error e => .error e
    | .ok (r, o) => .ok (some r, addType s o d)
  else if recognise.isUnexpected upper n then .ok (some ns, d.warn [.ignored (ignored n)])
  else .ok (none, d)

theorem step_type {s : Surroundings} {n : Node} (h : TypeHeader n) (ns : List Node) (d : Data) : step s n ns d =
    match namedMeaning s.world n ns d.known with
    | .error e => .error e
    | .ok (r, o) => .ok (some r, addType s o d) := by
  unfold step
  rw [if_pos ((type_iff n).mpr h)]

theorem step_closes {s : Surroundings} {n : Node} (h : Closes n) (ns : List Node) (d : Data) : step s n ns d = .ok (none, d) := by
  unfold step
  rw [if_neg (by rw [type_iff]; exact closes_not h), if_neg (by rw [unexpected_iff]; exact not_not_intro h)]

theorem step_ignored {s : Surroundings} {n : Node} (h : ¬ TypeHeader n) (h' : ¬ Closes n) (ns : List Node) (d : Data) :
    step s n ns d = .ok (some ns, d.warn [.ignored (ignored n)]) := by
  unfold step
  rw [if_neg (by rw [type_iff]; exact h), if_pos (unexpected_iff.mpr h')]

theorem step_suffixes (s : Surroundings) : Suffixes (step s) := by
  intro n ns d r d' h
  by_cases ht : TypeHeader n
  · rw [step_type ht] at h
    split at h
    · cases h
    · rename_i hm
      cases h
      exact MsonParser.named_suffix hm
  · by_cases hc : Closes n
    · rw [step_closes hc] at h; cases h
    · rw [step_ignored ht hc] at h; cases h; exact List.suffix_refl _

/-- The group. -/
def dataResult (s : Surroundings) (blocks : List Node) (d : Data) : Except Stop (List Node × Data) := many (step s) blocks.length blocks d

theorem data_parse (s : Surroundings) (ctx : List SectionType) {ns : List Node} {i : Nat} {n : Node} (known : Context)
    (hi : ns[i]? = some n) (hk : n.kind = .header) :
    parseData s ctx ns i known = at_ ns.length ctx (dataResult s (ns.drop (i + 1)) { known := known }) := by
  unfold parseData grammar
  rw [Grammar.parse]
  rw [parse_header (sg := fun _ d => .ok (true, d)) (isD := fun _ => false) (ds := fun _ d => .ok (true, d)) (F := step s) (fin := id) _ hi hk
    (step_suffixes s)]
  · unfold headResult dataResult
    have e0 : ∀ l : List Node, l.takeWhile (fun _ => false) = [] := by intro l; cases l <;> rfl
    have e1 : ∀ l : List Node, l.dropWhile (fun _ => false) = l := by intro l; cases l <;> rfl
    simp only [e0, e1, walk]
    cases many (step s) (ns.drop (i + 1)).length (ns.drop (i + 1)) { known := known } with
    | error e => rfl
    | ok q => rfl
  · intro m d hm
    simp only [own, signature, hm, if_true]
  · intro n d; rfl
  · intro j m d _ h; cases h
  · intro n t; rfl
  · intro j d; rfl
  · intro j m last d hm
    unfold nestedStep
    simp only [own, Bool.false_or]
    by_cases ht : TypeHeader m
    · rw [step_type ht, type_type ht, if_pos (by decide : SectionType.msonNamedType ≠ .undefined)]
      simp only [nestedSection, PD.top, PD.set]
      rw [named_at s.world ns j _ [] hm ht.1]
      cases namedMeaning s.world m (ns.drop (j + 1)) d.known with
      | error e => rfl
      | ok q =>
        obtain ⟨r, o⟩ := q
        simp only [MsonParser.afterW, at_, movedTo, MsonParser.after, List.nil_append]
    · rw [type_not ht, if_neg (by decide)]
      by_cases hc : Closes m
      · rw [step_closes hc, if_neg (by rw [unexpected_iff]; exact not_not_intro hc)]
        rfl
      · rw [step_ignored ht hc, if_pos (unexpected_iff.mpr hc)]
        rw [one_eq (f := unexpected) hm]
        have : j < ns.length := (List.getElem?_eq_some_iff.mp hm).1
        simp only [unexpected, movedTo, List.length_drop, Payload.outcome]
        congr 2
        omega
  · intro j d; rfl

/-! ## The blocks as a relation -/

/-- A state. -/
def data (ts : List NamedType) (known : Context) (ws : List Warning) : Data := { types := ts, known := known, warnings := ws }

theorem types_iff {s : Surroundings} : ∀ {fuel : Nat} {ns rest : List Node} {ts : List NamedType} {known : Context} {vs : List Warning} {d : Data},
    ns.length ≤ fuel →
    (many (step s) fuel ns (data ts known vs) = .ok (rest, d) ↔
      ∃ ts' known' ws, Types s ts known ns rest ts' known' ws ∧ d = data ts' known' (vs ++ ws)) := by
  have nil : ∀ {fuel : Nat} {rest : List Node} {ts : List NamedType} {known : Context} {vs : List Warning} {d : Data},
      (many (step s) fuel [] (data ts known vs) = .ok (rest, d) ↔
      ∃ ts' known' ws, Types s ts known [] rest ts' known' ws ∧ d = data ts' known' (vs ++ ws)) := by
    intro fuel rest ts known vs d
    have : many (step s) fuel [] (data ts known vs) = .ok ([], data ts known vs) := by
      cases fuel <;> rfl
    rw [this]
    constructor
    · intro h; cases h; exact ⟨_, _, _, .done, by simp⟩
    · rintro ⟨q, k, ws, h, rfl⟩; cases h; simp
  intro fuel
  induction fuel with
  | zero =>
    intro ns rest ts known vs d hl
    have : ns = [] := by cases ns with | nil => rfl | cons => simp at hl
    subst this
    exact nil
  | succ fuel ih =>
    intro ns rest ts known vs d hl
    cases ns with
    | nil => exact nil
    | cons n ns =>
      rw [List.length_cons] at hl
      rw [many]
      by_cases ht : TypeHeader n
      · have hnc : ¬ Closes n := fun h => closes_not h ht
        rw [step_type ht]
        constructor
        · intro h
          cases hm : namedMeaning s.world n ns (data ts known vs).known with
          | error e => rw [hm] at h; cases h
          | ok q =>
            obtain ⟨mid, t, known₁, v⟩ := q
            rw [hm] at h
            have hle := (MsonParser.named_suffix hm).length_le
            have hr := named_iff.mp hm
            simp only at h
            unfold addType at h
            by_cases hn : s.names t.name.literal = true
            · rw [if_pos hn] at h
              obtain ⟨ts', known', ws, h1, h2⟩ := (ih (by omega)).mp h
              exact ⟨_, _, _, .twice ht hr hn h1, by rw [h2]; simp [data]⟩
            · rw [if_neg hn] at h
              obtain ⟨ts', known', ws, h1, h2⟩ := (ih (by omega)).mp h
              exact ⟨_, _, _, .type ht hr (by simpa using hn) h1, by rw [h2]; simp [data]⟩
        · rintro ⟨ts', known', ws, h, rfl⟩
          cases h with
          | closed h => exact absurd h hnc
          | ignored h => exact absurd ht h
          | @type _ _ _ _ t known₁ v mid _ _ _ ws _ hr hn hs =>
            have hm := (named_iff (o := ⟨t, known₁, v⟩)).mpr hr
            have hle := (MsonParser.named_suffix hm).length_le
            rw [show (data ts known vs).known = known from rfl, hm]
            simp only
            unfold addType
            rw [if_neg (by simpa using hn)]
            exact (ih (by omega)).mpr ⟨_, _, _, hs, by simp [data]⟩
          | @twice _ _ _ _ t known₁ v mid _ _ _ ws _ hr hn hs =>
            have hm := (named_iff (o := ⟨t, known₁, v⟩)).mpr hr
            have hle := (MsonParser.named_suffix hm).length_le
            rw [show (data ts known vs).known = known from rfl, hm]
            simp only
            unfold addType
            rw [if_pos hn]
            exact (ih (by omega)).mpr ⟨_, _, _, hs, by simp [data]⟩
      · by_cases hc : Closes n
        · rw [step_closes hc]
          constructor
          · intro h; cases h; exact ⟨_, _, _, .closed hc, by simp⟩
          · rintro ⟨ts', known', ws, h, rfl⟩
            cases h with
            | closed => simp
            | type h => exact absurd h ht
            | twice h => exact absurd h ht
            | ignored _ h => exact absurd hc h
        · rw [step_ignored ht hc]
          simp only
          have hs : Strays [n] [ignored n] := strays_iff.mpr rfl
          constructor
          · intro h
            obtain ⟨ts', known', ws, h1, h2⟩ := (ih (by omega)).mp h
            exact ⟨_, _, _, .ignored ht hc hs h1, by rw [h2]; simp [data, Data.warn]⟩
          · rintro ⟨ts', known', ws, h, rfl⟩
            cases h with
            | closed h => exact absurd h hc
            | type h => exact absurd h ht
            | twice h => exact absurd h ht
            | ignored _ _ hv h1 =>
              rw [strays_iff] at hv
              subst hv
              exact (ih (by omega)).mpr ⟨_, _, _, h1, by simp [data, Data.warn]⟩

theorem data_iff {s : Surroundings} {blocks rest : List Node} {known : Context} {d : Data} :
    dataResult s blocks { known := known } = .ok (rest, d) ↔
      ∃ ts known' ws, Types s [] known blocks rest ts known' ws ∧ d = data ts known' ws := by
  unfold dataResult
  exact (types_iff (ts := []) (vs := []) (Nat.le_refl _)).trans (by simp)

end Verif.DataGroup
