import Verif.Proof.BlueprintReturns
import Verif.Proof.BlueprintOnce

/-!
# C43 (section parsing terminates and restores the context) and C53 (the whole document is read)
-/

namespace Verif.Props
open Verif.Section Verif.Spec.Section

/-! ## C43 -/

/-- Whatever section processors do with the data, so long as none of them hands back an earlier
node, the parser of the section comes back within one turn of each loop per node (a loop that
needed more would answer `diverges`), not before the node it was called at, not past the end, and
with the section context it was given. -/
theorem C43_section_parsing_terminates {σ : Type} (g : Grammar σ) (hg : AllObey g)
    (ns : List Node) (i : Nat) (pd : PD σ) (hi : i ≤ ns.length) :
    g.parse ns i pd ≠ .error .diverges ∧
      ∀ j q, g.parse ns i pd = .ok (j, q) → i ≤ j ∧ j ≤ ns.length ∧ q.context = pd.context :=
  parse_rules g hg ns i pd hi

/-- A list-defined section always ends at the next list item. -/
theorem C43_list_section_ends_at_next_item {σ : Type} (own : Own σ)
    (child : SectionType → Grammar σ) (hg : AllObey (.mk own .list child)) (ns : List Node) (i j : Nat)
    (pd q : PD σ) (h : (Grammar.mk own .list child).parse ns i pd = .ok (j, q)) (hi : i ≤ ns.length) :
    j = i + 1 :=
  (parseSection_step hg.1 (fun t => parse_rules _ (hg.2 t)) ns i pd hi).2 rfl j q h

/-- The processors of header-defined sections keep to the rule, whatever their regular expressions
answer and whatever they do with the data. -/
theorem C43_header_sections_obey {σ : Type} (r : Recognise) (h : Handlers σ) (x : Others σ)
    (hx : OthersObey x) : AllObey (blueprintGrammar r h x) := blueprint_allObey r h hx

/-- A processor that hands back the previous node at the second of two. -/
def backwards : Own Unit where
  signature _ i pd := .ok (.done i .exclusive pd)
  isDescription _ _ := false
  description _ i pd := .ok (i, pd)
  isContent _ _ := false
  content _ i pd := .ok (i, pd)
  preprocess _ _ pd := .ok pd
  nestedType _ := .body
  nested _ i pd := .ok (.done (1 - i) () pd)
  entered _ _ _ pd := .ok pd
  isUnexpected _ _ := false
  unexpected _ i _ pd := .ok (i, pd)
  finalize _ _ pd := .ok pd

/-- "Whatever the processors do" is too much: the parser only compares for equality, so that a
processor that hands back an earlier node keeps it busy for ever. -/
theorem C43_any_processor_refuted :
    ∃ (o : Own Unit) (ns : List Node), ∀ fuel pd,
      nestedLoop o false (fun _ _ i pd => .ok (i, pd)) ns fuel 0 .undefined pd =
        .error .diverges := by
  refine ⟨backwards, [.mk .paragraph [] [] [], .mk .paragraph [] [] []], ?_⟩
  intro fuel
  suffices h : ∀ fuel last pd, ∀ i < 2, nestedLoop backwards false (fun _ _ i pd => .ok (i, pd))
      [.mk .paragraph [] [] [], .mk .paragraph [] [] []] fuel i last pd = .error .diverges from
    fun pd => h fuel .undefined pd 0 (by omega)
  intro fuel
  induction fuel with
  | zero =>
    intro last pd i hi
    have : i = 0 ∨ i = 1 := by omega
    rcases this with rfl | rfl <;> rfl
  | succ fuel ih =>
    intro last pd i hi
    have : i = 0 ∨ i = 1 := by omega
    rcases this with rfl | rfl
    · rw [nestedLoop.eq_def]
      exact ih _ _ 1 (by omega)
    · rw [nestedLoop.eq_def]
      exact ih _ _ 0 (by omega)

/-! ## C53 -/

/-- If parsing a document returns at all, it has read all of it: no block makes the parser stop
early, whatever the regular expressions answer and whatever is done with the data. -/
theorem C53_document_is_read_to_its_end {σ : Type} (r : Recognise) (h : Handlers σ) (x : Others σ)
    (hx : OthersObey x) (ns : List Node) (pd : PD σ) (j : Nat) (q : PD σ)
    (hp : (blueprintGrammar r h x).parse ns 0 pd = .ok (j, q)) :
    j = ns.length ∧ q.context = pd.context :=
  ⟨blueprint_end r h hx ns pd j q hp,
    ((parse_rules _ (blueprint_allObey r h hx) ns 0 pd (Nat.zero_le _)).2 _ _ hp).2.2⟩

/-- It does return if the parsers of list items and of named types do: the parsers of the document,
its groups, resources, actions and data structures raise no exception of their own and never look
at a node past the end. -/
theorem C53_document_parsing_returns {σ : Type} (r : Recognise) (h : Handlers σ) (x : Others σ)
    (hx : OthersObey x) (hr : OthersReturn x) (ns : List Node) (pd : PD σ) :
    ∃ q, (blueprintGrammar r h x).parse ns 0 pd = .ok (ns.length, q) :=
  let ⟨q, hq, _⟩ := blueprint_returns r h hx hr ns pd
  ⟨q, hq⟩

/-- Every block at the top of the document is read exactly once and in order: as metadata, as the
signature or the description of a section, by the parser of a list item or named type, or as
unexpected (which is reported). -/
theorem C53_every_block_read_once (r : Recognise) (x : Others (List Nat)) (hx : OthersObey x)
    (hr : OthersReadOnce x) (ns : List Node) (context : List SectionType) (j : Nat)
    (q : PD (List Nat))
    (hp : (blueprintGrammar r recorder x).parse ns 0 ⟨context, []⟩ = .ok (j, q)) :
    q.data = List.range ns.length := by
  have h := (blueprint_reads r hr ns 0 ⟨context, []⟩ j q hp).2
  rw [h, blueprint_end r recorder hx ns _ j q hp, List.range_eq_range']
  simp

/-! ### The hypotheses can be met: a document with all of it -/

/-- Recognises sections by their whole text: `G`roup, `R`esource, `A`ction, `D`ata structures, `M`
metadata; every list item is a response in an action and a list of parameters in a resource. -/
def letters : Recognise where
  typeSection _ := .undefined
  mixin _ := false
  oneOf _ := false
  headers _ := false
  asset _ := .undefined
  attributes _ := false
  payload n := if n.text = [82] then .response else .undefined
  values _ := false
  parameters n := n.text = [80]
  relation _ := false
  resource t := t = [82] || t = [66]
  abbreviated t := t = [66]
  namedAction _ := false
  action t := t = [65] || t = [66]
  actionUri t := t = [66]
  group t := t = [71]
  dataStructures t := t = [68]
  metadata t := t = [77]

/-- A parser of list items that writes down the item. -/
def item : Own (List Nat) where
  signature ns _ pd := .ok (.done ns.length .exclusive pd)
  isDescription _ _ := false
  description _ i pd := .ok (i, pd)
  isContent _ _ := false
  content _ i pd := .ok (i, pd)
  preprocess _ _ pd := .ok pd
  nestedType _ := .undefined
  nested _ i pd := .ok (.done i () pd)
  entered _ _ _ pd := .ok pd
  isUnexpected _ _ := false
  unexpected _ i _ pd := .ok (i, pd)
  finalize _ i pd := .ok { pd with data := pd.data ++ [i] }

/-- The parsers of list items and of named types. -/
def items : Others (List Nat) where
  ofResource _ := .mk item .list fun _ => .absent
  ofAction _ := .mk item .list fun _ => .absent
  namedType := .mk (dataStructuresOwn letters recorder) .header fun _ => .absent

/-- Metadata, a name, a description, a group with a resource, its parameters and an action with a
response, an abbreviated action, a stray list item and data structures. -/
def document : List Node :=
  let li (t : Bytes) : Node := .mk .listItem t [⟨0, 1⟩] [.mk .paragraph t [⟨0, 1⟩] []]
  [.mk .paragraph [77] [⟨0, 1⟩] [], .mk .header [78] [⟨0, 1⟩] [], .mk .paragraph [100] [⟨0, 1⟩] [],
    .mk .header [71] [⟨0, 1⟩] [], .mk .header [82] [⟨0, 1⟩] [], li [80], .mk .header [65] [⟨0, 1⟩] [], li [82],
    .mk .header [66] [⟨0, 1⟩] [], li [82], li [120], .mk .header [68] [⟨0, 1⟩] [], .mk .header [78] [⟨0, 1⟩] []]

theorem item_obeys : Obeys item where
  signature ns i pd hi := answer_done hi (Nat.le_refl _) rfl
  description ns i pd hi := ⟨by simp [item], by
    intro j q h; cases h; exact ⟨Nat.le_refl _, Nat.le_of_lt hi, rfl⟩⟩
  content ns i pd hi := ⟨by simp [item], by
    intro j q h; cases h; exact ⟨Nat.le_refl _, Nat.le_of_lt hi, rfl⟩⟩
  preprocess ns i pd := ⟨by simp [item], by intro q h; cases h; rfl⟩
  nested ns i pd hi := answer_done (Nat.le_refl _) (Nat.le_of_lt hi) rfl
  entered ns i t pd := ⟨by simp [item], by intro q h; cases h; rfl⟩
  unexpected ns i last pd hi := ⟨by simp [item], by
    intro j q h; cases h; exact ⟨Nat.le_refl _, Nat.le_of_lt hi, rfl⟩⟩
  finalize ns i pd := ⟨by simp [item], by intro q h; cases h; rfl⟩

theorem items_obey : OthersObey items :=
  ⟨fun _ => ⟨item_obeys, fun _ => trivial⟩, fun _ => ⟨item_obeys, fun _ => trivial⟩,
    ⟨dataStructuresOwn_obeys _ _, fun _ => trivial⟩⟩

theorem item_parse (ns : List Node) (i : Nat) (pd : PD (List Nat)) (n : Node)
    (hn : ns[i]? = some n) (hk : n.kind = .listItem) :
    (Grammar.mk item .list fun _ => .absent).parse ns i pd =
      .ok (i + 1, { pd with data := pd.data ++ [i] }) := by
  have hlt := lt_of_some hn
  have hl : nestedLoop item true (fun _ => (Grammar.absent (σ := List Nat)).parse) n.children 0
      n.children.length .undefined pd = .ok (n.children.length, pd) := by
    rw [nestedLoop.eq_def]
    dsimp only
    rw [List.getElem?_eq_none (Nat.le_refl _)]
  simp only [Grammar.parse, parseSection, Adapter.start, hn, hk, if_true, item, closing,
    parseNested, Adapter.skips, Nat.sub_self, Adapter.next]
  unfold item at hl
  simp only [Grammar.parse] at hl
  rw [hl]
  simp only [if_neg (Nat.ne_of_lt hlt)]

theorem items_return : OthersReturn items := by
  refine ⟨fun t ns i pd n hn hk e => ?_, fun t ns i pd n hn hk e => ?_,
    returns_of (items_obey.namedType) ?_⟩
  · rw [show items.ofResource t = .mk item .list fun _ => .absent from rfl,
      item_parse ns i pd n hn hk]; simp
  · rw [show items.ofAction t = .mk item .list fun _ => .absent from rfl,
      item_parse ns i pd n hn hk]; simp
  · intro ns i pd n e hn hk he
    refine parseSection_err (common_quiet (fun ns i pd n hn hne _ => ⟨?_, ?_⟩))
      (start_header hn hk) ?_ ?_ he
    · intro e; split <;> simp
    · intro t pd' ht e; simp [Grammar.parse]
    · intro e; simp [dataStructuresOwn, common, oneNode, hn]
    · intro t pd'; simp [dataStructuresOwn, common, oneNode, hn]

theorem items_read_once : OthersReadOnce items := by
  have hi : ReadsOnce (Grammar.mk item .list fun _ => .absent).parse := by
    intro ns i pd j q h
    cases hn : ns[i]? with
    | none => simp [Grammar.parse, parseSection, Adapter.start, hn] at h
    | some n =>
      by_cases hk : n.kind = .listItem
      · rw [item_parse ns i pd n hn hk] at h
        cases h
        exact ⟨Nat.le_succ _, by simp⟩
      · simp [Grammar.parse, parseSection, Adapter.start, hn, hk] at h
  refine ⟨fun _ => hi, fun _ => hi, ?_⟩
  refine section_read (common_logs (by calls) fun _ => absent_reads) (by simp)
    (fun ns i pd => oneNode_read _ _ _ _)

example : (((blueprintGrammar letters recorder items).parse document 0 ⟨[], []⟩).toOption.map
    fun v => (v.1, v.2.data, v.2.context)) = some (13, List.range 13, []) := by decide +kernel

end Verif.Props
