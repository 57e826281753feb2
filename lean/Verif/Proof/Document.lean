import Verif.Proof.DataGroup
import Verif.Proof.Group
import Verif.Proof.Lookahead
import Verif.Spec.Document

/-! # The whole document -/

namespace Verif.Document
open Verif Verif.Text Verif.Regex Verif.Section Verif.Recognition Verif.Spec Verif.Spec.Recognition Verif.Spec.Payload Verif.Props
open Verif.Spec.DataGroup (ResourceHeading GroupHeading DataHeading Types)
open Verif.Spec.Group (GroupRead)
open Verif.Spec.Document hiding Outcome
open Verif.MsonParser (many movedTo Suffixes at_ drop_suffix nestedLoop_many)
open Verif.References (Table)
open Verif.Mson (Context)
open Verif.NamedTypes (Decl buildTables)
open Verif.Payload (one ignored one_eq drop_cons strays_iff steps outcome until_iff landing run)

/-! ## Kinds of blocks -/

theorem nested_kinds (n : Node) :
    (ResourceHeading n → recognise.blueprintNested n = .resource) ∧
    (¬ ResourceHeading n → GroupHeading n → recognise.blueprintNested n = .resourceGroup) ∧
    (¬ ResourceHeading n → ¬ GroupHeading n → DataHeading n → recognise.blueprintNested n = .dataStructureGroup) ∧
    (¬ Opens n → recognise.blueprintNested n = .undefined) := by
  have e1 : recognise.resourceType n = .resource ↔ ResourceHeading n := C74_resource n
  have e2 : recognise.groupType n = .resourceGroup ↔ GroupHeading n := C74_group n
  have e3 : recognise.dataStructuresType n = .dataStructureGroup ↔ DataHeading n := C74_data n
  unfold Opens
  rw [← e1, ← e2, ← e3]
  unfold Recognise.blueprintNested
  have v1 := ofHeader_values n (recognise.resource n.text) .resource
  have v3 := ofHeader_values n (recognise.group n.text) .resourceGroup
  have v4 := ofHeader_values n (recognise.dataStructures n.text) .dataStructureGroup
  change recognise.resourceType n = _ ∨ recognise.resourceType n = _ at v1
  change recognise.groupType n = _ ∨ recognise.groupType n = _ at v3
  change recognise.dataStructuresType n = _ ∨ recognise.dataStructuresType n = _ at v4
  clear e1 e2 e3
  generalize recognise.resourceType n = a at *
  generalize recognise.groupType n = b at *
  generalize recognise.dataStructuresType n = c at *
  rcases v1 with rfl | rfl <;> rcases v3 with rfl | rfl <;> rcases v4 with rfl | rfl <;> decide

theorem opens_iff (n : Node) : recognise.blueprintNested n ≠ .undefined ↔ Opens n := by
  obtain ⟨h1, h2, h3, h4⟩ := nested_kinds n
  constructor
  · intro h; apply Classical.byContradiction; intro h'; exact h (h4 h')
  · intro h
    by_cases g1 : ResourceHeading n
    · rw [h1 g1]; decide
    · by_cases g2 : GroupHeading n
      · rw [h2 g1 g2]; decide
      · rcases h with h | h | h
        · exact absurd h g1
        · exact absurd h g2
        · rw [h3 g1 g2 h]; decide

/-- A block of the description. -/
def isText (n : Node) : Bool := recognise.isDescription recognise.blueprintNested [] n

theorem text_iff (n : Node) : isText n = true ↔ ¬ Opens n := by
  rw [← opens_iff]
  unfold isText Recognise.isDescription
  by_cases h : recognise.blueprintNested n ≠ .undefined
  · simp [h]
  · rw [if_neg h]; simp [h]

theorem opens_header {n : Node} (h : Opens n) : n.kind = .header := by
  rcases h with h | h | h <;> exact h.1

/-! ## One section -/

/-- The blocks of a section: all but those that are left. -/
def used (ns mid : List Node) : List Node := ns.take (ns.length - mid.length)

theorem used_eq {ns mid u : List Node} (h : ns = u ++ mid) : used ns mid = u := by
  subst h; simp [used]

theorem used_append {ns mid : List Node} (h : mid <:+ ns) : ns = used ns mid ++ mid := by
  obtain ⟨u, rfl⟩ := h
  rw [used_eq rfl]

theorem used_at {ns mid : List Node} {i : Nat} : (ns.take (ns.length - mid.length)).drop i = used (ns.drop i) mid := by
  rw [used, List.drop_take, List.length_drop]
  congr 1; omega

/-- One block of the document, with those after it. -/
def step (s : Surroundings) (n : Node) (ns : List Node) (d : Data) : Except Stop (Option (List Node) × Data) :=
  match recognise.blueprintNested n with
  | .resource =>
    match Group.groupResult (s.group d) [.resource] d.table none n ns with
    | .error e => .error e
    | .ok (mid, g) => .ok (some mid, addResources s (used (n :: ns) mid) g d)
  | .resourceGroup =>
    match Group.groupResult (s.group d) [.resourceGroup] d.table none n ns with
    | .error e => .error e
    | .ok (mid, g) => .ok (some mid, addGroup s (used (n :: ns) mid) g d)
  | .dataStructureGroup =>
    match DataGroup.dataResult (s.data d) ns { known := { d.known with error := none } } with
    | .error e => .error e
    | .ok (mid, g) => .ok (some mid, addData g d)
  | _ => .ok (some ns, d.warn [.ignored (ignored n)])

theorem step_resource {s : Surroundings} {n : Node} (h : ResourceHeading n) (ns : List Node) (d : Data) : step s n ns d =
    match Group.groupResult (s.group d) [.resource] d.table none n ns with
    | .error e => .error e
    | .ok (mid, g) => .ok (some mid, addResources s (used (n :: ns) mid) g d) := by
  unfold step; rw [(nested_kinds n).1 h]

theorem step_group {s : Surroundings} {n : Node} (h : ¬ ResourceHeading n) (h' : GroupHeading n) (ns : List Node) (d : Data) : step s n ns d =
    match Group.groupResult (s.group d) [.resourceGroup] d.table none n ns with
    | .error e => .error e
    | .ok (mid, g) => .ok (some mid, addGroup s (used (n :: ns) mid) g d) := by
  unfold step; rw [(nested_kinds n).2.1 h h']

theorem step_data {s : Surroundings} {n : Node} (h : ¬ ResourceHeading n) (h' : ¬ GroupHeading n) (h'' : DataHeading n) (ns : List Node) (d : Data) :
    step s n ns d =
    match DataGroup.dataResult (s.data d) ns { known := { d.known with error := none } } with
    | .error e => .error e
    | .ok (mid, g) => .ok (some mid, addData g d) := by
  unfold step; rw [(nested_kinds n).2.2.1 h h' h'']

theorem step_ignored {s : Surroundings} {n : Node} (h : ¬ Opens n) (ns : List Node) (d : Data) :
    step s n ns d = .ok (some ns, d.warn [.ignored (ignored n)]) := by
  unfold step; rw [(nested_kinds n).2.2.2 h]

/-- What is left after a group comes after its header. -/
theorem group_suffix {s : Group.Surroundings} {ctx : List SectionType} {table : Table} {error : Option Resource.Problem} {sig : Node}
    {blocks rest : List Node} {d : Group.Data} (h : Group.groupResult s ctx table error sig blocks = .ok (rest, d)) : rest <:+ blocks := by
  unfold Group.groupResult at h
  split at h
  · rename_i hr
    have hgo : Group.go sig = true := by unfold Group.go; rw [if_pos hr]
    rw [List.length_cons, run, if_pos hgo] at h
    cases hf : Group.sectionData s ctx sig blocks .undefined (Group.data [] ⟨[], table, error⟩ []) with
    | error e => rw [hf] at h; cases h
    | ok q =>
      obtain ⟨r, d₁⟩ := q
      rw [hf] at h
      simp only at h
      split at h
      · cases h
      · rename_i h'
        cases h
        exact (Payload.run_suffix Group.section_suffix _ _ _ _ _ _ h').trans (Group.section_suffix _ _ _ _ _ _ hf)
  · obtain ⟨d₁, d₂, -, h2, -⟩ := Resource.runResult_iff.mp h
    exact (Payload.run_suffix Group.section_suffix _ _ _ _ _ _ h2).trans (List.dropWhile_suffix _)

theorem step_suffixes (s : Surroundings) : Suffixes (step s) := by
  intro n ns d r d' h
  unfold step at h
  split at h
  · split at h
    · cases h
    · rename_i hm; cases h; exact group_suffix hm
  · split at h
    · cases h
    · rename_i hm; cases h; exact group_suffix hm
  · split at h
    · cases h
    · rename_i hm; cases h; exact MsonParser.many_suffix (DataGroup.step_suffixes _) hm
  · cases h; exact List.suffix_refl _

theorem step_some {s : Surroundings} {n : Node} {ns : List Node} {d d' : Data} : step s n ns d ≠ .ok (none, d') := by
  intro h
  unfold step at h
  split at h
  · split at h <;> cases h
  · split at h <;> cases h
  · split at h <;> cases h
  · cases h

theorem many_all {s : Surroundings} : ∀ {fuel : Nat} {ns rest : List Node} {d d' : Data}, ns.length ≤ fuel →
    many (step s) fuel ns d = .ok (rest, d') → rest = [] := by
  intro fuel
  induction fuel with
  | zero =>
    intro ns rest d d' hl h
    have : ns = [] := by cases ns with | nil => rfl | cons => simp at hl
    subst this
    cases h; rfl
  | succ fuel ih =>
    intro ns rest d d' hl h
    cases ns with
    | nil => cases h; rfl
    | cons n ns =>
      rw [many] at h
      cases hs : step s n ns d with
      | error e => rw [hs] at h; cases h
      | ok q =>
        obtain ⟨_ | r, d₁⟩ := q
        · exact absurd hs step_some
        · rw [hs] at h
          have := (step_suffixes s _ _ _ _ _ hs).length_le
          rw [List.length_cons] at hl
          exact ih (by omega) h

theorem nested_step (s : Surroundings) (ns : List Node) (j : Nat) (m : Node) (last : SectionType) (d : Data) (hm : ns[j]? = some m) :
    nestedStep (own s) false (fun _ => Grammar.absent.parse) ns m j last ⟨(own s).nestedType m :: [], d⟩ =
      movedTo ns.length j ((own s).nestedType m :: []) (step s m (ns.drop (j + 1)) d) := by
  have hlt : j < ns.length := (List.getElem?_eq_some_iff.mp hm).1
  have hd : ns.drop j = m :: ns.drop (j + 1) := drop_cons hm
  unfold nestedStep
  simp only [own, Bool.false_or]
  by_cases h1 : ResourceHeading m
  · rw [step_resource h1, (nested_kinds m).1 h1, if_pos (by decide : SectionType.resource ≠ .undefined)]
    simp only [nestedSection, PD.top, PD.set]
    rw [Group.group_parse (s.group d) [.resource] d.table none hm h1.1]
    cases hg : Group.groupResult (s.group d) [.resource] d.table none m (ns.drop (j + 1)) with
    | error e => rfl
    | ok q =>
      obtain ⟨r, g⟩ := q
      simp only [landing, movedTo, used_at, hd]
  · by_cases h2 : GroupHeading m
    · rw [step_group h1 h2, (nested_kinds m).2.1 h1 h2, if_pos (by decide : SectionType.resourceGroup ≠ .undefined)]
      simp only [nestedSection, PD.top, PD.set]
      rw [Group.group_parse (s.group d) [.resourceGroup] d.table none hm h2.1]
      cases hg : Group.groupResult (s.group d) [.resourceGroup] d.table none m (ns.drop (j + 1)) with
      | error e => rfl
      | ok q =>
        obtain ⟨r, g⟩ := q
        simp only [landing, movedTo, used_at, hd]
    · by_cases h3 : DataHeading m
      · rw [step_data h1 h2 h3, (nested_kinds m).2.2.1 h1 h2 h3, if_pos (by decide : SectionType.dataStructureGroup ≠ .undefined)]
        simp only [nestedSection, PD.top, PD.set]
        rw [DataGroup.data_parse (s.data d) [.dataStructureGroup] { d.known with error := none } hm h3.1]
        cases hg : DataGroup.dataResult (s.data d) (ns.drop (j + 1)) { known := { d.known with error := none } } with
        | error e => rfl
        | ok q =>
          obtain ⟨r, g⟩ := q
          simp only [at_, movedTo]
      · have ho : ¬ Opens m := by rintro (h | h | h); exact h1 h; exact h2 h; exact h3 h
        rw [step_ignored ho, (nested_kinds m).2.2.2 ho, if_neg (by decide), if_pos trivial]
        rw [one_eq (f := unexpected) hm]
        simp only [unexpected, movedTo, List.length_drop, Payload.outcome]
        congr 2
        omega

/-! ## The document as a function -/

/-- The look-ahead over the blocks. -/
def ahead (s : Surroundings) (blocks : List Node) (d : Data) : Except Stop Data :=
  match Lookahead.declarations blocks with
  | .error e => .error e
  | .ok (ds, typos) =>
    match buildTables ds with
    | none => .error .diverges
    | some (.error e) => .ok { d.warn (typos.map .typo) with known := s.broken ds, error := some (.type e) }
    | some (.ok t) => .ok { d.warn (typos.map .typo) with known := ⟨t.dep, t.base, [], none⟩ }

/-- Sections and the end. -/
def rest (s : Surroundings) (blocks : List Node) (d : Data) : Except Stop Data :=
  match ahead s blocks d with
  | .error e => .error e
  | .ok d =>
    match many (step s) blocks.length blocks d with
    | .error e => .error e
    | .ok (_, d) => .ok (finalize s ⟨[], d⟩).data

/-- The description, sections and the end. -/
def afterTitle (s : Surroundings) (blocks : List Node) (d : Data) : Except Stop Data :=
  match steps (fun n d => description s n ⟨[], d⟩) (blocks.takeWhile isText) d with
  | .error e => .error e
  | .ok d => rest s (blocks.dropWhile isText) d

/-- The document. -/
def docResult (s : Surroundings) (blocks : List Node) : Except Stop Data :=
  if blocks = [] then .ok {}
  else
    let m := metadata blocks {}
    match blocks.drop m.1 with
    | [] => rest s [] m.2.1
    | n :: ns =>
      if m.2.2 = false ∧ n.kind = .header then
        if recognise.blueprintNested n ≠ .undefined then rest s (n :: ns) m.2.1
        else afterTitle s ns { m.2.1 with name := trim n.text }
      else
        match description s n ⟨[], m.2.1⟩ with
        | .error e => .error e
        | .ok d => afterTitle s ns d

/-- At the end of the blocks. -/
def ended (l : Nat) : Except Stop Data → Except Stop (Nat × PD Data)
  | .error e => .error e
  | .ok d => .ok (l, ⟨[], d⟩)

theorem closing_rest (s : Surroundings) (ns : List Node) (cur : Nat) (d : Data) (hc : cur ≤ ns.length) :
    closing (own s) .blueprint (fun _ => Grammar.absent.parse) ns 0 ns cur ⟨[], d⟩ = ended ns.length (rest s (ns.drop cur) d) := by
  unfold closing parseNested rest
  have hp : (own s).preprocess ns cur ⟨[], d⟩ = (ahead s (ns.drop cur) d).map fun d => ⟨[], d⟩ := by
    simp only [own, preprocess, ahead, PD.set]
    cases Lookahead.declarations (ns.drop cur) with
    | error e => rfl
    | ok q =>
      obtain ⟨ds, ts⟩ := q
      simp only
      cases buildTables ds with
      | none => rfl
      | some r => cases r <;> rfl
  rw [hp]
  cases ahead s (ns.drop cur) d with
  | error e => rfl
  | ok d₁ =>
    simp only [Except.map, Adapter.skips]
    rw [nestedLoop_many (step_suffixes s) (fun j m last d h => nested_step s ns j m last d h) _ (ns.drop cur).length _ _ _ hc (by simp) (by simp)]
    cases hm : many (step s) (ns.drop cur).length (ns.drop cur) d₁ with
    | error e => rfl
    | ok q =>
      obtain ⟨r, d₂⟩ := q
      have := many_all (Nat.le_refl _) hm
      subst this
      simp only [own, Adapter.next, ended, List.length_nil, Nat.sub_zero, finalize, PD.set]

theorem body_rest (s : Surroundings) (ns : List Node) (cur : Nat) (d : Data) (hc : cur ≤ ns.length) (h0 : cur ≠ 0) :
    body (own s) .blueprint (fun _ => Grammar.absent.parse) ns 0 ns 0 cur ⟨[], d⟩ = ended ns.length (afterTitle s (ns.drop cur) d) := by
  unfold body afterTitle
  rw [if_neg h0, Payload.phase_eq (is := (own s).isDescription) (step := (own s).description) (top := .undefined) (g := fun n d => description s n ⟨[], d⟩) (fun _ => rfl)
    (fun j m d h _ => one_eq (f := description s) (pd := ⟨[], d⟩) h) _ _ _ hc rfl]
  have e : ((ns.drop cur).takeWhile fun x => (own s).isDescription x .undefined) = (ns.drop cur).takeWhile isText := rfl
  rw [e]
  cases steps (fun n d => description s n ⟨[], d⟩) ((ns.drop cur).takeWhile isText) d with
  | error e => rfl
  | ok d₁ =>
    simp only
    have hph : ∀ fuel cur, phase (own s).isContent (own s).content ns fuel cur ⟨[], d₁⟩ = .ok (cur, ⟨[], d₁⟩, true) := by
      intro fuel cur
      rw [phase.eq_def]
      cases hcur : ns[cur]? with
      | none => simp only [hcur]
      | some m => simp [hcur, own]
    rw [hph]
    have l1 := Payload.takeWhile_length_le isText (ns.drop cur)
    rw [List.length_drop] at l1
    simp only
    rw [closing_rest s ns _ d₁ (by omega), ← List.drop_drop, Payload.drop_takeWhile_length]

theorem metadata_le : ∀ (ns : List Node) (d : Data), (metadata ns d).1 ≤ ns.length := by
  intro ns
  induction ns with
  | nil => intro d; simp [metadata]
  | cons n ns ih =>
    intro d
    rw [metadata]
    split
    · simp only
      split
      · simp
      · exact Nat.succ_le_succ (ih _)
    · simp

theorem document_parse (s : Surroundings) (blocks : List Node) : parseDocument s blocks = ended blocks.length (docResult s blocks) := by
  unfold parseDocument grammar Grammar.parse parseSection Adapter.start docResult
  simp only
  rw [show (own s).signature = signature s from rfl]
  unfold signature
  simp only [List.drop_zero, Nat.zero_add, PD.set]
  cases blocks with
  | nil => rfl
  | cons b bs =>
    rw [if_neg (by simp)]
    generalize hbl : b :: bs = ns
    have hne : 0 < ns.length := by rw [← hbl]; simp
    have hle := metadata_le ns {}
    generalize metadata ns {} = m at hle
    obtain ⟨k, d, t⟩ := m
    simp only at hle ⊢
    by_cases hk : k < ns.length
    · have hn : ns[k]? = some ns[k] := List.getElem?_eq_getElem hk
      rw [drop_cons hn, hn]
      simp only
      by_cases hh : t = false ∧ ns[k].kind = .header
      · rw [if_pos hh, if_pos hh]
        by_cases ho : recognise.blueprintNested ns[k] ≠ .undefined
        · simp only [if_pos ho]
          rw [closing_rest s ns k d (by omega), drop_cons hn]
        · simp only [if_neg ho]
          rw [body_rest s ns (k + 1) _ (by omega) (by omega)]
      · rw [if_neg hh, if_neg hh]
        cases description s ns[k] ⟨[], d⟩ with
        | error e => rfl
        | ok d₁ =>
          simp only
          rw [body_rest s ns (k + 1) _ (by omega) (by omega)]
    · have : k = ns.length := by omega
      subst this
      simp only [List.getElem?_length, List.drop_length]
      rw [body_rest s ns _ _ (by omega) (by omega), List.drop_length]
      rfl

end Verif.Document
