import Verif.Proof.GroupKinds
import Verif.Proof.Resource

/-! # What the parser of groups gives -/

namespace Verif.Group
open Verif Verif.Text Verif.Regex Verif.Section Verif.Recognition Verif.Spec Verif.Spec.Recognition Verif.Spec.Payload Verif.Spec.Group Verif.Props
open Verif.Spec.Resource (ActionHeader WholeHeader ResourceRead)
open Verif.Spec.MsonParser (Follows)
open Verif.Payload (steps run landing runResult closing_run body_run lastOf outcome ignored one_eq strays_iff until_iff)
open Verif.Resource (resourceResult landing_one runResult_iff map_ok)
open Verif.References (Table)

/-! ## Text that is continued -/

/-- The text `v` after the text `t`. -/
theorem follows_iff {t v d : Bytes} : ((if t.isEmpty then some [] else twoNewLines t).map (· ++ trim v) = some d) ↔
    ∃ s, Trimmed v s ∧ Follows t s d := by
  by_cases he : t = []
  · subst he
    simp only [List.isEmpty_nil, if_true, Option.map_some, List.nil_append, Option.some.injEq]
    constructor
    · rintro rfl; exact ⟨_, trim_iff.mp rfl, .first⟩
    · rintro ⟨s, h1, h2⟩
      cases h2 with
      | first => exact trim_iff.mpr h1
      | next h => exact absurd rfl h
  · rw [if_neg (by simpa using he)]
    constructor
    · intro h
      cases ht : twoNewLines t with
      | none => rw [ht] at h; cases h
      | some r =>
        rw [ht] at h
        cases h
        have hne : ¬ (t = [] ∨ t = [asc '\n']) := by rw [← Payload.twoNewLines_none, ht]; simp
        rw [not_or] at hne
        refine ⟨_, trim_iff.mp rfl, ?_⟩
        rw [Payload.twoNewLines_closed ht]
        exact .next hne.1 hne.2
    · rintro ⟨s, h1, h2⟩
      rw [← trim_iff] at h1
      subst h1
      cases h2 with
      | first => exact absurd rfl he
      | next h h' =>
        cases ht : twoNewLines t with
        | none => rcases Payload.twoNewLines_none.mp ht with h | h <;> contradiction
        | some r => simp only [Option.map_some]; rw [Payload.twoNewLines_closed ht]

/-! ## Descriptions -/

/-- The state and the warnings as the parser has them. -/
def data (name : Bytes) (x : State) (vs : List Warning) : Data := ⟨name, x.elements, vs, x.table, x.error⟩

theorem description_eq {s : Surroundings} {n : Node} {ctx : List SectionType} {d : Data} : description s n ⟨ctx, d⟩ =
    match (if (copied d.elements).2.isEmpty then some [] else twoNewLines (copied d.elements).2).map
      (· ++ trim (ByteBuffer.mapBytesRangeSet n.sourceMap s.inner.source)) with
    | none => .error .outOfRange
    | some t => .ok { d with elements := (copied d.elements).1 ++ [.copy t] } := by
  unfold description
  simp only
  cases (if (copied d.elements).2.isEmpty then some [] else twoNewLines (copied d.elements).2) <;> rfl

theorem description_iff' {s : Surroundings} {n : Node} {ctx : List SectionType} {name : Bytes} {x : State} {vs : List Warning} {d : Data} :
    description s n ⟨ctx, data name x vs⟩ = .ok d ↔
      ∃ v t, Trimmed (ByteBuffer.mapBytesRangeSet n.sourceMap s.inner.source) v ∧ Follows (copied x.elements).2 v t ∧
        d = data name { x with elements := (copied x.elements).1 ++ [.copy t] } vs := by
  rw [description_eq, show (data name x vs).elements = x.elements from rfl]
  constructor
  · intro h
    cases hm : (if (copied x.elements).2.isEmpty then some [] else twoNewLines (copied x.elements).2).map
      (· ++ trim (ByteBuffer.mapBytesRangeSet n.sourceMap s.inner.source)) with
    | none => rw [hm] at h; cases h
    | some t =>
      rw [hm] at h
      cases h
      obtain ⟨v, h1, h2⟩ := follows_iff.mp hm
      exact ⟨v, t, h1, h2, rfl⟩
  · rintro ⟨v, t, h1, h2, rfl⟩
    rw [follows_iff.mpr ⟨v, h1, h2⟩]
    rfl

theorem copied_copy (t : Bytes) : copied [.copy t] = ([], t) := rfl

theorem more_iff {s : Surroundings} {w : Table} {ctx : List SectionType} {ns : List Node} {name : Bytes} {table : Table} {error : Option Resource.Problem}
    {vs : List Warning} : ∀ {t : Bytes} {d : Data},
    steps (fun n d => description s n ⟨ctx, d⟩) ns (data name ⟨[.copy t], table, error⟩ vs) = .ok d ↔
      ∃ e, Describes (s.inner.world w) t ns e ∧ d = data name ⟨[.copy e], table, error⟩ vs := by
  induction ns with
  | nil =>
    intro t d
    rw [steps]
    constructor
    · intro h; cases h; exact ⟨_, .nil, rfl⟩
    · rintro ⟨e, h, rfl⟩; cases h; rfl
  | cons n ns ih =>
    intro t d
    rw [steps]
    constructor
    · intro h
      split at h
      · cases h
      · rename_i d₁ h1
        obtain ⟨v, d', h2, h3, rfl⟩ := description_iff'.mp h1
        obtain ⟨e, h4, rfl⟩ := ih.mp h
        exact ⟨e, .cons h2 h3 h4, rfl⟩
    · rintro ⟨e, h, rfl⟩
      cases h with
      | cons h2 h3 h4 =>
        rw [(description_iff' (x := ⟨[.copy t], table, error⟩)).mpr ⟨_, _, h2, h3, rfl⟩]
        exact ih.mpr ⟨_, h4, rfl⟩

theorem described_iff {s : Surroundings} {w : Table} {ctx : List SectionType} {ns : List Node} {name : Bytes} {table : Table}
    {error : Option Resource.Problem} {vs : List Warning} {d : Data} :
    steps (fun n d => description s n ⟨ctx, d⟩) ns (data name ⟨[], table, error⟩ vs) = .ok d ↔
      ∃ es, Described (s.inner.world w) ns es ∧ d = data name ⟨es, table, error⟩ vs := by
  cases ns with
  | nil =>
    rw [steps]
    constructor
    · intro h; cases h; exact ⟨_, .none, rfl⟩
    · rintro ⟨e, h, rfl⟩; cases h; rfl
  | cons n ns =>
    rw [steps]
    constructor
    · intro h
      split at h
      · cases h
      · rename_i d₁ h1
        obtain ⟨v, d', h2, h3, rfl⟩ := description_iff'.mp h1
        obtain ⟨e, h4, rfl⟩ := more_iff.mp h
        exact ⟨_, .some (.cons h2 h3 h4), rfl⟩
    · rintro ⟨e, h, rfl⟩
      cases h with
      | some h =>
        cases h with
        | cons h2 h3 h4 =>
          rw [(description_iff' (x := ⟨[], table, error⟩)).mpr ⟨_, _, h2, h3, rfl⟩]
          exact more_iff.mpr ⟨_, h4, rfl⟩

/-! ## The header -/

theorem title_iff {text name : Bytes} : Title text name ↔ name = groupName text := by
  have none_of : (¬ ∃ n, GroupLine (cstr text) n) → groupName text = [] := by
    intro h
    unfold groupName
    rw [regexCapture_full_none 3 c_group (by rw [L_group]; exact h)]
  constructor
  · intro h
    cases h with
    | group h1 h2 h3 => exact (C76_group _ _ _ _ (Resource.beforeNul_iff.mp h1) h2 h3).symm
    | none h1 h2 =>
      rw [Resource.beforeNul_iff] at h1
      subst h1
      exact (none_of h2).symm
  · rintro rfl
    by_cases h : ∃ n, GroupLine (cstr text) n
    · obtain ⟨n, h⟩ := h
      rw [C76_group text _ n (trim n) rfl h (trim_spec _)]
      exact .group (Resource.beforeNul_iff.mpr rfl) h (trim_spec _)
    · rw [none_of h]
      exact .none (Resource.beforeNul_iff.mpr rfl) h

/-! ## One section -/

/-- What a section gives and the blocks that are left. -/
def sectionData (s : Surroundings) (ctx : List SectionType) (n : Node) (ns : List Node) (_ : SectionType) (d : Data) : Except Stop (List Node × Data) :=
  if recognise.groupNested n ≠ .undefined then
    (resourceResult s.inner .resource ctx d.table d.error n ns).map fun r => (r.1, addResource s r.2 d)
  else (unexpected n ⟨.undefined :: ctx, d⟩).map (ns, ·)

variable {s : Surroundings} {ctx : List SectionType}

theorem section_resource {n : Node} (ns : List Node) (last : SectionType) (d : Data) (h : ResourceHeader n) : sectionData s ctx n ns last d =
    (resourceResult s.inner .resource ctx d.table d.error n ns).map fun r => (r.1, addResource s r.2 d) := by
  unfold sectionData
  rw [if_pos ((header_iff n).mpr h)]

theorem section_other {n : Node} (ns : List Node) (last : SectionType) (d : Data) (h : ¬ ResourceHeader n) : sectionData s ctx n ns last d =
    (unexpected n ⟨.undefined :: ctx, d⟩).map (ns, ·) := by
  unfold sectionData
  rw [if_neg (by rw [header_iff]; exact h)]

theorem section_suffix (n : Node) (ns : List Node) (last : SectionType) (d : Data) (rest : List Node) (d' : Data)
    (h : sectionData s ctx n ns last d = .ok (rest, d')) : rest <:+ ns := by
  unfold sectionData at h
  split at h
  · obtain ⟨⟨r, e⟩, h1, h2⟩ := map_ok h
    cases h2
    exact Resource.result_suffix h1
  · obtain ⟨_, _, h⟩ := map_ok h
    cases h
    exact List.suffix_rfl

theorem undefined_of {n : Node} (h : ¬ ResourceHeader n) : recognise.groupNested n = .undefined := by
  rw [← header_iff, Decidable.not_not] at h
  exact h

theorem group_step (ns : List Node) (j : Nat) (m : Node) (last : SectionType) (d : Data) (h : ns[j]? = some m) (hg : go m = true) :
    nestedStep (own s) false (fun _ => Grammar.absent.parse) ns m j last ⟨(own s).nestedType m :: ctx, d⟩ =
      landing ns ((own s).nestedType m :: ctx) (sectionData s ctx m (ns.drop (j + 1)) last d) := by
  unfold nestedStep
  simp only [own, Bool.false_or]
  by_cases hm : ResourceHeader m
  · rw [section_resource _ _ _ hm, header_type m hm, if_pos (by decide : SectionType.resource ≠ .undefined)]
    simp only [nestedSection, PD.top, PD.set]
    rw [show (Resource.parseResource s.inner (SectionType.resource :: ctx) ns j d.table d.error) = _ from
      Resource.resource_parse s.inner .resource ctx d.table d.error h hm.1]
    cases resourceResult s.inner .resource ctx d.table d.error m (ns.drop (j + 1)) <;> rfl
  · rw [section_other _ _ _ hm, undefined_of hm, if_neg (by decide)]
    unfold go at hg
    rw [undefined_of hm] at hg
    have hg : isUnexpected m = true := hg
    rw [if_pos hg, ← landing_one h]
    exact one_eq (f := unexpected) h

theorem group_stop (ns : List Node) (j : Nat) (m : Node) (last : SectionType) (d : Data) (hg : go m = false) :
    nestedStep (own s) false (fun _ => Grammar.absent.parse) ns m j last ⟨(own s).nestedType m :: ctx, d⟩ =
      .ok (j, ⟨(own s).nestedType m :: ctx, d⟩) := by
  unfold nestedStep
  unfold go at hg
  simp only [own, Bool.false_or]
  by_cases hu : recognise.groupNested m = .undefined
  · rw [hu] at hg
    have hg : isUnexpected m = false := hg
    simp only [hu, ne_eq, not_true_eq_false, if_false, hg, Bool.false_eq_true]
  · rw [if_pos hu] at hg; cases hg

/-! ## Resources that are defined twice -/

theorem defined_iff {es : List Element} {uri : Bytes} : (es.any (hasUri uri) || s.uris uri) = true ↔ Defined s es uri := by
  unfold Defined
  rw [Bool.or_eq_true, List.any_eq_true]
  refine or_congr ⟨?_, ?_⟩ Iff.rfl
  · rintro ⟨e, h, he⟩
    cases e with
    | copy => cases he
    | resource r => exact ⟨r, h, by simpa [hasUri] using he⟩
  · rintro ⟨r, h, rfl⟩
    exact ⟨_, h, by simp [hasUri]⟩

theorem twice_iff {es : List Element} {uri : Bytes} {b : List Warning} : Twice s es uri b ↔
    b = if es.any (hasUri uri) || s.uris uri then [.duplicateResource uri] else [] := by
  by_cases h : Defined s es uri
  · rw [if_pos (defined_iff.mpr h)]
    constructor
    · intro h'
      cases h' with
      | yes => rfl
      | no h' => exact absurd h h'
    · rintro rfl; exact .yes h
  · rw [if_neg (by rw [defined_iff]; exact h)]
    constructor
    · intro h'
      cases h' with
      | yes h' => exact absurd h' h
      | no => rfl
    · rintro rfl; exact .no h

theorem present_iff {es : List Element} : isResourcePresent es = true ↔ ∀ r, .resource r ∉ es := by
  unfold isResourcePresent
  rw [List.all_eq_true]
  constructor
  · intro h r hr
    have := h _ hr
    cases this
  · intro h e he
    cases e with
    | copy => rfl
    | resource r => exact absurd he (h r)

theorem lastResource_none {es : List Element} (h : ∀ r, .resource r ∉ es) : lastResource es = {} := by
  unfold lastResource
  have key : ∀ (es : List Element) (x : Resource.Resource), (∀ r, .resource r ∉ es) → es.foldl (fun last e => match e with
    | .resource r => r
    | .copy _ => last) x = x := by
    intro es
    induction es with
    | nil => intro x _; rfl
    | cons e es ih =>
      intro x h
      cases e with
      | copy => exact ih x (fun r hr => h r (.tail _ hr))
      | resource r => exact absurd (.head _) (h r)
  exact key es {} h

/-- The header of an action in a group without resources. -/
theorem unexpected_action {n : Node} {x : State} {name : Bytes} {vs : List Warning} {a : Action.Action} (ha : ActionHeader n)
    (hr : ∀ r, .resource r ∉ x.elements) (hl : Spec.Action.HeadLine n.text a) :
    unexpected n ⟨.undefined :: ctx, data name x vs⟩ = .ok (data name x (vs ++ [.unexpectedAction a.method []])) := by
  rw [Action.headLine_iff] at hl
  subst hl
  unfold unexpected
  rw [show (data name x vs).elements = x.elements from rfl, (action_iff n).mpr ha, present_iff.mpr hr, lastResource_none hr]
  rfl

/-- Another block. -/
theorem unexpected_ignored {n : Node} {x : State} {name : Bytes} {vs : List Warning} (h : ¬ (ActionHeader n ∧ ∀ r, .resource r ∉ x.elements)) :
    unexpected n ⟨.undefined :: ctx, data name x vs⟩ = .ok (data name x (vs ++ [.resource (.action (.payload (ignored n)))])) := by
  unfold unexpected
  rw [show (data name x vs).elements = x.elements from rfl, if_neg]
  · rfl
  · rw [Bool.and_eq_true, decide_eq_true_eq, action_iff, present_iff]
    exact h

/-! ## All blocks -/

theorem addResource_eq {name : Bytes} {x : State} {vs : List Warning} {y : Spec.Resource.State} {v : List Resource.Warning} {b : List Warning}
    (h : Twice s x.elements y.resource.uri b) : addResource s (Resource.data y v) (data name x vs) =
      data name ⟨x.elements ++ [.resource y.resource], y.table, y.error⟩ (vs ++ (v.map .resource ++ b)) := by
  rw [twice_iff] at h
  subst h
  simp [addResource, data, Resource.data]

theorem sections_iff {name : Bytes} : ∀ {fuel : Nat} {ns rest : List Node} {last : SectionType} {x : State} {vs : List Warning} {d : Data},
    ns.length ≤ fuel →
    (run (sectionData s ctx) recognise.groupNested go fuel ns last (data name x vs) = .ok (rest, d) ↔
      ∃ y ws, Sections s x ns rest y ws ∧ d = data name y (vs ++ ws)) := by
  have nil : ∀ {fuel : Nat} {rest : List Node} {last : SectionType} {x : State} {vs : List Warning} {d : Data},
      (run (sectionData s ctx) recognise.groupNested go fuel [] last (data name x vs) = .ok (rest, d) ↔
      ∃ y ws, Sections s x [] rest y ws ∧ d = data name y (vs ++ ws)) := by
    intro fuel rest last x vs d
    have : run (sectionData s ctx) recognise.groupNested go fuel [] last (data name x vs) = .ok ([], data name x vs) := by
      cases fuel <;> rfl
    rw [this]
    constructor
    · intro h; cases h; exact ⟨_, _, .done, by simp⟩
    · rintro ⟨q, ws, h, rfl⟩; cases h; simp
  intro fuel
  induction fuel with
  | zero =>
    intro ns rest last x vs d hf
    have : ns = [] := List.length_eq_zero_iff.mp (by omega)
    subst this
    exact nil
  | succ fuel ih =>
    intro ns rest last x vs d hf
    cases ns with
    | nil => exact nil
    | cons n ns =>
      rw [run]
      have hg := go_iff n
      have hlen : ns.length ≤ fuel := by simpa using hf
      by_cases hc : Closes n
      · rw [if_neg (by rw [hg]; simpa using hc)]
        constructor
        · intro h; cases h; exact ⟨_, _, .closed hc, by simp⟩
        · rintro ⟨y, ws, h, rfl⟩
          cases h with
          | closed => simp
          | resource h => exact absurd h (closes_not hc).1
          | action _ h => exact absurd h (closes_not hc).2
          | ignored _ h => exact absurd hc h
      · rw [if_pos (hg.mpr hc)]
        by_cases hr : ResourceHeader n
        · rw [section_resource ns last _ hr, show (data name x vs).table = x.table from rfl, show (data name x vs).error = x.error from rfl]
          constructor
          · intro h
            cases hq : resourceResult s.inner .resource ctx x.table x.error n ns with
            | error e => rw [hq] at h; cases h
            | ok r =>
              obtain ⟨mid, r⟩ := r
              have hs := (Resource.result_suffix hq).length_le
              rw [hq] at h
              simp only [Except.map] at h
              obtain ⟨r, v, h1, rfl⟩ := Resource.read_iff.mp hq
              have ht : Twice s x.elements r.resource.uri _ := twice_iff.mpr rfl
              rw [addResource_eq ht] at h
              obtain ⟨y, ws, h5, rfl⟩ := (ih (Nat.le_trans hs hlen)).mp h
              exact ⟨y, _, .resource hr h1 ht h5, by simp [List.append_assoc]⟩
          · rintro ⟨y, ws, h, rfl⟩
            cases h with
            | closed h => exact absurd h hc
            | action h => exact absurd hr h
            | ignored h => exact absurd hr h
            | resource _ h1 h2 h3 =>
              have hq := (Resource.read_iff (outer := ctx)).mpr ⟨_, _, h1, rfl⟩
              have hs := (Resource.result_suffix hq).length_le
              rw [hq]
              simp only [Except.map]
              rw [addResource_eq h2, (ih (Nat.le_trans hs hlen)).mpr ⟨_, _, h3, rfl⟩]
              simp [List.append_assoc]
        · rw [section_other ns last _ hr]
          by_cases ha : ActionHeader n ∧ ∀ r, .resource r ∉ x.elements
          · have hl : Spec.Action.HeadLine n.text _ := Action.headLine_iff.mpr rfl
            constructor
            · intro h
              rw [unexpected_action ha.1 ha.2 hl] at h
              simp only [Except.map] at h
              obtain ⟨y, ws, h5, rfl⟩ := (ih hlen).mp h
              exact ⟨y, _, .action hr ha.1 ha.2 hl h5, by simp [List.append_assoc]⟩
            · rintro ⟨y, ws, h, rfl⟩
              cases h with
              | closed h => exact absurd h hc
              | resource h => exact absurd h hr
              | ignored _ _ h => exact absurd ha h
              | action _ _ _ h1 h2 =>
                rw [unexpected_action ha.1 ha.2 h1]
                simp only [Except.map]
                rw [(ih hlen).mpr ⟨_, _, h2, rfl⟩]
                simp [List.append_assoc]
          · rw [unexpected_ignored ha]
            simp only [Except.map]
            rw [ih hlen]
            constructor
            · rintro ⟨y, ws, h, rfl⟩
              exact ⟨y, _, .ignored hr hc ha (strays_iff.mpr rfl) h, by simp [List.append_assoc]⟩
            · rintro ⟨y, ws, h, rfl⟩
              cases h with
              | closed h => exact absurd h hc
              | resource h => exact absurd h hr
              | action _ h h' => exact absurd ⟨h, h'⟩ ha
              | ignored _ _ _ h1 h2 =>
                rw [strays_iff] at h1
                subst h1
                exact ⟨y, _, h2, by simp [List.append_assoc]⟩

/-! ## The group -/

/-- What is read of a group, and the blocks that are left. -/
def groupResult (s : Surroundings) (ctx : List SectionType) (table : Table) (error : Option Resource.Problem) (sig : Node)
    (blocks : List Node) : Except Stop (List Node × Data) :=
  if recognise.groupNested sig ≠ .undefined then
    match run (sectionData s ctx) recognise.groupNested go (sig :: blocks).length (sig :: blocks) .undefined (data [] ⟨[], table, error⟩ []) with
    | .error e => .error e
    | .ok (rest, d) => .ok (rest, id d)
  else runResult isDescription (fun n d => description s n ⟨ctx, d⟩) (sectionData s ctx) recognise.groupNested go id blocks
    (data (groupName sig.text) ⟨[], table, error⟩ [])

theorem group_parse (s : Surroundings) {siblings : List Node} {i : Nat} {sig : Node} (ctx : List SectionType)
    (table : Table) (error : Option Resource.Problem) (hi : siblings[i]? = some sig) (hk : sig.kind = .header) :
    parseGroup s ctx siblings i table error = landing siblings ctx (groupResult s ctx table error sig (siblings.drop (i + 1))) := by
  have hlt : i < siblings.length := (List.getElem?_eq_some_iff.mp hi).1
  have hdrop : siblings.drop i = sig :: siblings.drop (i + 1) := by
    rw [List.drop_eq_getElem_cons hlt, (List.getElem?_eq_some_iff.mp hi).2]
  unfold parseGroup grammar Grammar.parse parseSection Adapter.start
  simp only [hi, if_pos hk]
  rw [show (own s).signature = signature from rfl]
  unfold signature groupResult
  simp only [hi]
  by_cases hr : recognise.groupNested sig ≠ .undefined
  · simp only [if_pos hr]
    rw [closing_run (o := own s) (a := .header) (i := i) (cur := i) (go := go)
      (F := sectionData s ctx) (fin := id) rfl (fun _ _ _ => rfl) (by omega) rfl
      (fun j m last d h hg => group_step siblings j m last d h hg) section_suffix
      (fun j m last d h hg => group_stop siblings j m last d hg) (fun _ _ _ => rfl), hdrop, show (own s).nestedType = recognise.groupNested from rfl,
      show ({ table := table, error := error } : Data) = data [] ⟨[], table, error⟩ [] from rfl]
    cases run (sectionData s ctx) recognise.groupNested go (sig :: siblings.drop (i + 1)).length (sig :: siblings.drop (i + 1)) .undefined
      (data [] ⟨[], table, error⟩ []) <;> rfl
  · simp only [if_neg hr, PD.set]
    rw [body_run (o := own s) (a := .header) (i := i) (start := i) (cur := i + 1) (top := (⟨ctx, ({} : Data)⟩ : PD Data).top) (go := go) (ds := fun n d => description s n ⟨ctx, d⟩)
      (F := sectionData s ctx) (fin := id) _ rfl (fun _ _ _ => rfl) (by omega) (by omega) (fun _ => rfl)
      (fun j m d h _ => one_eq (f := description s) (pd := ⟨ctx, d⟩) h)
      (fun _ => rfl) (fun _ _ => rfl)
      (fun j m last d h hg => group_step siblings j m last d h hg) section_suffix
      (fun j m last d h hg => group_stop siblings j m last d hg) (fun _ _ _ => rfl)]
    rfl

theorem after_until {l pre post : List Node} : Until AfterDescription l pre post ↔ pre = l.takeWhile isDescription ∧ post = l.dropWhile isDescription :=
  until_iff description_iff

theorem read_iff {table : Table} {error : Option Resource.Problem} {sig : Node} {blocks rest : List Node} {d : Data} :
    groupResult s ctx table error sig blocks = .ok (rest, d) ↔
      ∃ name x ws, GroupRead s table error sig blocks rest name x ws ∧ d = data name x ws := by
  unfold groupResult
  by_cases hr : ResourceHeader sig
  · rw [if_pos ((header_iff sig).mpr hr)]
    constructor
    · intro h
      cases hq : run (sectionData s ctx) recognise.groupNested go (sig :: blocks).length (sig :: blocks) .undefined (data [] ⟨[], table, error⟩ []) with
      | error e => rw [hq] at h; cases h
      | ok y =>
        obtain ⟨r, d₁⟩ := y
        rw [hq] at h
        cases h
        obtain ⟨x, ws, h1, rfl⟩ := (sections_iff (Nat.le_refl _)).mp hq
        exact ⟨[], x, ws, .resources hr h1, by simp⟩
    · rintro ⟨name, x, ws, h, rfl⟩
      cases h with
      | resources _ h1 =>
        rw [(sections_iff (Nat.le_refl _)).mpr ⟨_, _, h1, rfl⟩]
        rfl
      | group h => exact absurd hr h
  · rw [if_neg (by rw [header_iff]; exact hr), runResult_iff]
    constructor
    · rintro ⟨d₁, d₂, h1, h2, rfl⟩
      obtain ⟨es, g1, rfl⟩ := (described_iff (w := table)).mp h1
      obtain ⟨x, b, g2, rfl⟩ := (sections_iff (Nat.le_refl _)).mp h2
      exact ⟨_, _, _, .group hr (title_iff.mpr rfl) (after_until.mpr ⟨rfl, rfl⟩) g1 g2, by simp⟩
    · rintro ⟨name, x, ws, h, rfl⟩
      cases h with
      | resources h => exact absurd h hr
      | group _ h1 h2 h3 h4 =>
        rw [title_iff] at h1
        subst h1
        obtain ⟨rfl, rfl⟩ := after_until.mp h2
        exact ⟨_, _, (described_iff (w := table)).mpr ⟨_, h3, rfl⟩, (sections_iff (Nat.le_refl _)).mpr ⟨_, _, h4, rfl⟩, by simp⟩

theorem result_suffix {table : Table} {error : Option Resource.Problem} {sig : Node} {blocks rest : List Node} {d : Data}
    (h : groupResult s ctx table error sig blocks = .ok (rest, d)) : rest <:+ sig :: blocks := by
  unfold groupResult at h
  split at h
  · split at h
    · cases h
    · rename_i h'
      cases h
      exact Payload.run_suffix section_suffix _ _ _ _ _ _ h'
  · obtain ⟨d₁, d₂, -, h2, -⟩ := runResult_iff.mp h
    exact ((Payload.run_suffix section_suffix _ _ _ _ _ _ h2).trans (List.dropWhile_suffix _)).trans (List.suffix_cons _ _)

end Verif.Group
