import Verif.Proof.Document

/-! # The whole document: the function and the relation -/

namespace Verif.Document
open Verif Verif.Text Verif.Regex Verif.Section Verif.Recognition Verif.Spec Verif.Spec.Recognition Verif.Spec.Payload Verif.Props
open Verif.Spec.DataGroup (ResourceHeading GroupHeading DataHeading Types)
open Verif.Spec.Group (GroupRead)
open Verif.Spec.Document hiding Outcome
open Verif.MsonParser (many movedTo Suffixes at_ drop_suffix nestedLoop_many)
open Verif.References (Table)
open Verif.Mson (Context)
open Verif.NamedTypes (Decl buildTables)
open Verif.Payload (one ignored one_eq drop_cons strays_iff steps outcome until_iff landing run)

/-- A state. -/
def data (ms : List (Bytes × Bytes)) (name description : Bytes) (x : State) (vs : List Warning) : Data :=
  ⟨ms, name, description, x.elements, vs, x.table, x.known, x.error⟩

/-! ## What surrounds a section -/

theorem hasUri_part (uri : Bytes) (gs : List Group.Element) : gs.any (Group.hasUri uri) = true ↔ ∃ r, .resource r ∈ gs ∧ r.uri = uri := by
  rw [List.any_eq_true]
  constructor
  · rintro ⟨e, he, h⟩
    cases e with
    | copy t => cases h
    | resource r => exact ⟨r, he, by simpa [Group.hasUri] using h⟩
  · rintro ⟨r, he, h⟩
    exact ⟨_, he, by simpa [Group.hasUri] using h⟩

theorem named_part (name : Bytes) (gs : List Group.Element) : gs.any (partNamed name) = true ↔ ∃ r, .resource r ∈ gs ∧ r.attributes.name = name := by
  rw [List.any_eq_true]
  constructor
  · rintro ⟨e, he, h⟩
    cases e with
    | copy t => cases h
    | resource r => exact ⟨r, he, by simpa [partNamed] using h⟩
  · rintro ⟨r, he, h⟩
    exact ⟨_, he, by simpa [partNamed] using h⟩

theorem isAt_iff (es : List Element) (uri : Bytes) : isAt es uri = true ↔ HasUri es uri := by
  unfold isAt HasUri
  rw [List.any_eq_true]
  constructor
  · rintro ⟨e, he, h⟩
    cases e with
    | top e =>
      cases e with
      | copy t => cases h
      | resource r => exact .inl ⟨r, he, by simpa [elementAt, Group.hasUri] using h⟩
    | group name gs =>
      obtain ⟨r, h1, h2⟩ := (hasUri_part uri gs).mp h
      exact .inr ⟨name, gs, r, he, h1, h2⟩
    | data ts => cases h
  · rintro (⟨r, he, h⟩ | ⟨name, gs, r, he, h1, h2⟩)
    · exact ⟨_, he, by simpa [elementAt, Group.hasUri] using h⟩
    · exact ⟨_, he, (hasUri_part uri gs).mpr ⟨r, h1, h2⟩⟩

theorem isNamed_iff (es : List Element) (name : Bytes) : isNamed es name = true ↔ HasType es name := by
  unfold isNamed HasType
  rw [List.any_eq_true]
  constructor
  · rintro ⟨e, he, h⟩
    cases e with
    | top e =>
      cases e with
      | copy t => cases h
      | resource r => exact .inl ⟨r, he, by simpa [elementNamed, partNamed] using h⟩
    | group g gs =>
      obtain ⟨r, h1, h2⟩ := (named_part name gs).mp h
      exact .inr (.inl ⟨g, gs, r, he, h1, h2⟩)
    | data ts =>
      obtain ⟨t, h1, h2⟩ := List.any_eq_true.mp h
      exact .inr (.inr ⟨ts, t, he, h1, by simpa using h2⟩)
  · rintro (⟨r, he, h⟩ | ⟨g, gs, r, he, h1, h2⟩ | ⟨ts, t, he, h1, h2⟩)
    · exact ⟨_, he, by simpa [elementNamed, partNamed] using h⟩
    · exact ⟨_, he, (named_part name gs).mpr ⟨r, h1, h2⟩⟩
    · exact ⟨_, he, List.any_eq_true.mpr ⟨t, h1, by simpa using h2⟩⟩

theorem bool_funext {f g : Bytes → Bool} (h : ∀ x, f x = true ↔ g x = true) : f = g := by
  funext x
  have := h x
  cases hf : f x <;> cases hg : g x <;> simp_all

theorem around_iff {s : Surroundings} {x : State} {g : Group.Surroundings} {ms : List (Bytes × Bytes)} {name description : Bytes} {vs : List Warning} :
    Around s x g ↔ g = s.group (data ms name description x vs) := by
  constructor
  · intro h
    obtain ⟨⟨gs, ga, gp, gn⟩, gu⟩ := g
    have h1 := h.source
    have h2 := h.attributes
    have h3 := h.parameters
    have h4 : gn = isNamed x.elements := bool_funext fun n => (h.named n).trans (isNamed_iff _ n).symm
    have h5 : gu = isAt x.elements := bool_funext fun n => (h.uris n).trans (isAt_iff _ n).symm
    simp only at h1 h2 h3
    subst h1 h2 h3 h4 h5
    rfl
  · rintro rfl
    exact ⟨rfl, rfl, rfl, fun n => isNamed_iff _ n, fun n => isAt_iff _ n⟩

theorem aroundData_iff {s : Surroundings} {x : State} {g : DataGroup.Surroundings} {ms : List (Bytes × Bytes)} {name description : Bytes}
    {vs : List Warning} : AroundData s x g ↔ g = s.data (data ms name description x vs) := by
  constructor
  · intro h
    obtain ⟨gw, gn⟩ := g
    have h1 := h.world
    have h4 : gn = isNamed x.elements := bool_funext fun n => (h.names n).trans (isNamed_iff _ n).symm
    simp only at h1
    subst h1 h4
    rfl
  · rintro rfl
    exact ⟨rfl, fun n => isNamed_iff _ n⟩

theorem twice_iff {es : List Element} {name : Bytes} {b : List Warning} :
    GroupTwice es name b ↔ b = if es.any (isGroup name) then [.duplicateGroup name] else [] := by
  have key : es.any (isGroup name) = true ↔ ∃ gs, .group name gs ∈ es := by
    rw [List.any_eq_true]
    constructor
    · rintro ⟨e, he, h⟩
      cases e with
      | top e => cases h
      | group g gs =>
        have : g = name := by simpa [isGroup] using h
        subst this
        exact ⟨gs, he⟩
      | data ts => cases h
    · rintro ⟨gs, he⟩
      exact ⟨_, he, by simp [isGroup]⟩
  constructor
  · intro h
    cases h with
    | yes h => rw [if_pos (key.mpr ⟨_, h⟩)]
    | no h => rw [if_neg (by rw [key]; rintro ⟨gs, hg⟩; exact h gs hg)]
  · rintro rfl
    split
    · rename_i h
      obtain ⟨gs, hg⟩ := key.mp h
      exact .yes hg
    · rename_i h
      exact .no fun gs hg => h (key.mpr ⟨gs, hg⟩)

/-! ## Sections -/

theorem addResources_eq {s : Surroundings} {u : List Node} {ms : List (Bytes × Bytes)} {name description : Bytes} {x : State} {vs : List Warning}
    {g : Bytes} {y : Spec.Group.State} {v : List Group.Warning} :
    addResources s u (Group.data g y v) (data ms name description x vs) = data ms name description
      ⟨x.elements ++ y.elements.map .top, y.table, s.refers u x.known, (y.error.map .resource).or x.error⟩ (vs ++ v.map .group) := by
  unfold addResources Data.after data Group.data
  simp only
  cases y.error <;> rfl

theorem addGroup_eq {s : Surroundings} {u : List Node} {ms : List (Bytes × Bytes)} {name description : Bytes} {x : State} {vs b : List Warning}
    {g : Bytes} {y : Spec.Group.State} {v : List Group.Warning} (hb : GroupTwice x.elements g b) :
    addGroup s u (Group.data g y v) (data ms name description x vs) = data ms name description
      ⟨x.elements ++ [.group g y.elements], y.table, s.refers u x.known, (y.error.map .resource).or x.error⟩ (vs ++ (v.map .group ++ b)) := by
  rw [twice_iff] at hb
  subst hb
  unfold addGroup Data.after Data.warn data Group.data
  simp only [List.append_assoc]
  cases y.error <;> rfl

theorem addData_eq {ms : List (Bytes × Bytes)} {name description : Bytes} {x : State} {vs : List Warning}
    {ts : List DataStructure.NamedType} {known : Context} {v : List DataGroup.Warning} :
    addData (DataGroup.data ts known v) (data ms name description x vs) = data ms name description
      ⟨x.elements ++ [.data ts], x.table, known, (known.error.map .type).or x.error⟩ (vs ++ v.map .data) := by
  unfold addData data DataGroup.data
  simp only
  cases known.error <;> rfl

theorem sections_iff {s : Surroundings} {ms : List (Bytes × Bytes)} {name description : Bytes} : ∀ {fuel : Nat} {ns r : List Node} {x : State}
    {vs : List Warning} {d : Data}, ns.length ≤ fuel →
    (many (step s) fuel ns (data ms name description x vs) = .ok (r, d) ↔
      ∃ z ws, Sections s x ns z ws ∧ r = [] ∧ d = data ms name description z (vs ++ ws)) := by
  have nil : ∀ {fuel : Nat} {r : List Node} {x : State} {vs : List Warning} {d : Data},
      (many (step s) fuel [] (data ms name description x vs) = .ok (r, d) ↔
      ∃ z ws, Sections s x [] z ws ∧ r = [] ∧ d = data ms name description z (vs ++ ws)) := by
    intro fuel r x vs d
    have : many (step s) fuel [] (data ms name description x vs) = .ok ([], data ms name description x vs) := by cases fuel <;> rfl
    rw [this]
    constructor
    · intro h; cases h; exact ⟨_, _, .done, rfl, by simp⟩
    · rintro ⟨z, ws, h, rfl, rfl⟩; cases h; simp
  intro fuel
  induction fuel with
  | zero =>
    intro ns r x vs d hl
    have : ns = [] := by cases ns with | nil => rfl | cons => simp at hl
    subst this
    exact nil
  | succ fuel ih =>
    intro ns r x vs d hl
    cases ns with
    | nil => exact nil
    | cons n ns =>
      rw [List.length_cons] at hl
      rw [many]
      by_cases h1 : ResourceHeading n
      · rw [step_resource h1]
        constructor
        · intro h
          cases hg : Group.groupResult (s.group (data ms name description x vs)) [.resource] (data ms name description x vs).table none n ns with
          | error e => rw [hg] at h; cases h
          | ok q =>
            obtain ⟨mid, g⟩ := q
            rw [hg] at h
            have hs := group_suffix hg
            obtain ⟨nm, y, v, hr, rfl⟩ := Group.read_iff.mp hg
            simp only [addResources_eq] at h
            obtain ⟨z, ws, hz, rfl, rfl⟩ := (ih (Nat.le_trans hs.length_le (by omega))).mp h
            exact ⟨z, _, .resource h1 (around_iff.mpr rfl) hr (used_append (hs.trans (List.suffix_cons _ _))) hz, rfl, by rw [List.append_assoc]⟩
        · rintro ⟨z, ws, h, rfl, rfl⟩
          cases h with
          | resource _ ha hr hu hz =>
            cases (around_iff (ms := ms) (name := name) (description := description) (vs := vs)).mp ha
            have hg := Group.read_iff (ctx := [.resource]).mpr ⟨_, _, _, hr, rfl⟩
            have hs := group_suffix hg
            rw [show (data ms name description x vs).table = x.table from rfl, hg]
            simp only [addResources_eq, used_eq hu]
            rw [(ih (Nat.le_trans hs.length_le (by omega))).mpr ⟨_, _, hz, rfl, rfl⟩, List.append_assoc]
          | group h => exact absurd h1 h
          | data h => exact absurd h1 h
          | ignored h => exact absurd (.inl h1) h
      · by_cases h2 : GroupHeading n
        · rw [step_group h1 h2]
          constructor
          · intro h
            cases hg : Group.groupResult (s.group (data ms name description x vs)) [.resourceGroup] (data ms name description x vs).table none n ns with
            | error e => rw [hg] at h; cases h
            | ok q =>
              obtain ⟨mid, g⟩ := q
              rw [hg] at h
              have hs := group_suffix hg
              obtain ⟨nm, y, v, hr, rfl⟩ := Group.read_iff.mp hg
              simp only [addGroup_eq (twice_iff.mpr rfl)] at h
              obtain ⟨z, ws, hz, rfl, rfl⟩ := (ih (Nat.le_trans hs.length_le (by omega))).mp h
              exact ⟨z, _, .group h1 h2 (around_iff.mpr rfl) hr (used_append (hs.trans (List.suffix_cons _ _))) (twice_iff.mpr rfl) hz, rfl,
                by rw [List.append_assoc]⟩
          · rintro ⟨z, ws, h, rfl, rfl⟩
            cases h with
            | resource h => exact absurd h h1
            | group _ _ ha hr hu hb hz =>
              cases (around_iff (ms := ms) (name := name) (description := description) (vs := vs)).mp ha
              have hg := Group.read_iff (ctx := [.resourceGroup]).mpr ⟨_, _, _, hr, rfl⟩
              have hs := group_suffix hg
              rw [show (data ms name description x vs).table = x.table from rfl, hg]
              simp only [addGroup_eq hb, used_eq hu]
              rw [(ih (Nat.le_trans hs.length_le (by omega))).mpr ⟨_, _, hz, rfl, rfl⟩, List.append_assoc]
            | data _ h => exact absurd h2 h
            | ignored h => exact absurd (.inr (.inl h2)) h
        · by_cases h3 : DataHeading n
          · rw [step_data h1 h2 h3]
            constructor
            · intro h
              cases hg : DataGroup.dataResult (s.data (data ms name description x vs)) ns
                  { known := { (data ms name description x vs).known with error := none } } with
              | error e => rw [hg] at h; cases h
              | ok q =>
                obtain ⟨mid, g⟩ := q
                rw [hg] at h
                have hs := MsonParser.many_suffix (DataGroup.step_suffixes _) hg
                obtain ⟨ts, known, v, hr, rfl⟩ := DataGroup.data_iff.mp hg
                simp only [addData_eq] at h
                obtain ⟨z, ws, hz, rfl, rfl⟩ := (ih (Nat.le_trans hs.length_le (by omega))).mp h
                exact ⟨z, _, .data h1 h2 h3 (aroundData_iff.mpr rfl) hr hz, rfl, by rw [List.append_assoc]⟩
            · rintro ⟨z, ws, h, rfl, rfl⟩
              cases h with
              | resource h => exact absurd h h1
              | group _ h => exact absurd h h2
              | data _ _ _ ha hr hz =>
                cases (aroundData_iff (ms := ms) (name := name) (description := description) (vs := vs)).mp ha
                have hg := DataGroup.data_iff.mpr ⟨_, _, _, hr, rfl⟩
                have hs := MsonParser.many_suffix (DataGroup.step_suffixes _) hg
                rw [show (data ms name description x vs).known = x.known from rfl, hg]
                simp only [addData_eq]
                rw [(ih (Nat.le_trans hs.length_le (by omega))).mpr ⟨_, _, hz, rfl, rfl⟩, List.append_assoc]
              | ignored h => exact absurd (.inr (.inr h3)) h
          · have ho : ¬ Opens n := by rintro (h | h | h); exact h1 h; exact h2 h; exact h3 h
            rw [step_ignored ho]
            have e : (data ms name description x vs).warn [.ignored (ignored n)] = data ms name description x (vs ++ [.ignored (ignored n)]) := rfl
            have hst : Strays [n] [ignored n] := by rw [strays_iff]; rfl
            simp only [e]
            rw [ih (by omega)]
            constructor
            · rintro ⟨z, ws, hz, rfl, rfl⟩
              exact ⟨z, _, .ignored ho hst hz, rfl, by simp⟩
            · rintro ⟨z, ws, h, rfl, rfl⟩
              cases h with
              | resource h => exact absurd h h1
              | group _ h => exact absurd h h2
              | data _ _ h => exact absurd h h3
              | ignored _ hv hz =>
                rw [strays_iff] at hv
                subst hv
                exact ⟨z, _, hz, rfl, by simp⟩

/-! ## The beginning -/

theorem pairs_iff {n : Node} : (n.kind = .paragraph ∧ (Metadata.parseMetadata n.text).1 ≠ []) ↔ MetaBlock n := by
  unfold MetaBlock
  have : (Metadata.parseMetadata n.text).1 = (split (asc '\n') (trimEnd n.text)).filterMap keyValueFromLine := rfl
  rw [this, ne_eq, List.filterMap_eq_nil_iff]
  constructor
  · rintro ⟨h1, h2⟩
    refine ⟨h1, ?_⟩
    apply Classical.byContradiction
    intro h
    apply h2
    intro l hl
    cases hk : keyValueFromLine l with
    | none => rfl
    | some q =>
      obtain ⟨k, v⟩ := q
      exact absurd ⟨l, hl, k, v, keyValue_iff.1 hk⟩ h
  · rintro ⟨h1, l, hl, k, v, hk⟩
    refine ⟨h1, fun h => ?_⟩
    have := h l hl
    rw [keyValue_iff.2 hk] at this
    cases this

theorem no_reports {text : Bytes} (h : (Metadata.parseMetadata text).1 = []) : (Metadata.parseMetadata text).2 = [] := by
  unfold Metadata.parseMetadata at h ⊢
  simp only at h ⊢
  rw [h]
  split <;> rfl

/-- The data after the metadata. -/
def withMetadata (d : Data) (ms : List (Bytes × Bytes)) (vs : List Metadata.Warning) : Data :=
  { d with metadata := d.metadata ++ ms, warnings := d.warnings ++ vs.map .metadata }

theorem head_exists : ∀ (ns : List Node) (d : Data), ∃ ms vs, Head ns ms vs (ns.drop (metadata ns d).1) ∧
    (metadata ns d).2.1 = withMetadata d ms vs ∧
    ((metadata ns d).2.2 = true ↔ ∃ n, (ns.drop (metadata ns d).1).head? = some n ∧ n.kind = .paragraph) := by
  intro ns
  induction ns with
  | nil =>
    intro d
    exact ⟨[], [], .done (by simp), by simp [metadata, withMetadata], by simp [metadata]⟩
  | cons n ns ih =>
    intro d
    rw [metadata]
    by_cases hk : n.kind = .paragraph
    · rw [if_pos hk]
      simp only
      by_cases he : (Metadata.parseMetadata n.text).1 = []
      · rw [if_pos (by rw [he]; rfl), no_reports he]
        refine ⟨[], [], .done ?_, ?_, ?_⟩
        · intro m hm
          cases hm
          rw [← pairs_iff]
          exact fun h => h.2 he
        · simp [withMetadata, Data.warn]
        · simp [hk]
      · rw [if_neg (by simpa using he)]
        have hb : MetaBlock n := pairs_iff.mp ⟨hk, he⟩
        generalize hd : Data.mk _ _ _ _ _ _ _ _ = d₁
        obtain ⟨ms, vs, h1, h2, h3⟩ := ih d₁
        refine ⟨_, _, .more hb h1, ?_, h3⟩
        subst hd
        simp only
        rw [h2]
        simp [withMetadata, Data.warn]
    · rw [if_neg hk]
      refine ⟨[], [], .done ?_, by simp [withMetadata], by simp [hk]⟩
      intro m hm
      cases hm
      exact fun h => hk h.1

theorem head_unique {ns : List Node} {ms ms' : List (Bytes × Bytes)} {vs vs' : List Metadata.Warning} {r r' : List Node} (h : Head ns ms vs r) :
    Head ns ms' vs' r' → ms = ms' ∧ vs = vs' ∧ r = r' := by
  induction h generalizing ms' vs' with
  | more hb _ ih =>
    intro h'
    cases h' with
    | more _ h' => obtain ⟨rfl, rfl, rfl⟩ := ih h'; exact ⟨rfl, rfl, rfl⟩
    | done h' => exact absurd hb (h' _ rfl)
  | done h =>
    intro h'
    cases h' with
    | more hb _ => exact absurd hb (h _ rfl)
    | done _ => exact ⟨rfl, rfl, rfl⟩

theorem description_iff {s : Surroundings} {n : Node} {ctx : List SectionType} {d d' : Data} : description s n ⟨ctx, d⟩ = .ok d' ↔
    ∃ v e, Trimmed (ByteBuffer.mapBytesRangeSet n.sourceMap s.source) v ∧ Spec.MsonParser.Follows d.description v e ∧
      d' = { d with description := e } := by
  have key : description s n ⟨ctx, d⟩ =
      match (if d.description.isEmpty then some [] else twoNewLines d.description).map (· ++ trim (ByteBuffer.mapBytesRangeSet n.sourceMap s.source)) with
      | none => .error .outOfRange
      | some e => .ok { d with description := e } := by
    unfold description
    simp only
    cases (if d.description.isEmpty then some [] else twoNewLines d.description) <;> rfl
  rw [key]
  constructor
  · intro h
    split at h
    · cases h
    · rename_i e he
      cases h
      obtain ⟨v, h1, h2⟩ := Group.follows_iff.mp he
      exact ⟨v, e, h1, h2, rfl⟩
  · rintro ⟨v, e, h1, h2, rfl⟩
    rw [Group.follows_iff.mpr ⟨v, h1, h2⟩]

theorem describes_iff {s : Surroundings} {ns : List Node} : ∀ {d d' : Data}, steps (fun n d => description s n ⟨[], d⟩) ns d = .ok d' ↔
    ∃ e, Describes (texts s) d.description ns e ∧ d' = { d with description := e } := by
  induction ns with
  | nil =>
    intro d d'
    rw [steps]
    constructor
    · intro h; cases h; exact ⟨_, .nil, rfl⟩
    · rintro ⟨e, h, rfl⟩; cases h; rfl
  | cons n ns ih =>
    intro d d'
    rw [steps]
    constructor
    · intro h
      cases hd : description s n ⟨[], d⟩ with
      | error e => rw [hd] at h; cases h
      | ok d₁ =>
        rw [hd] at h
        obtain ⟨v, e, h1, h2, rfl⟩ := description_iff.mp hd
        obtain ⟨e', h3, rfl⟩ := ih.mp h
        exact ⟨e', .cons h1 h2 h3, rfl⟩
    · rintro ⟨e, h, rfl⟩
      cases h with
      | cons h1 h2 h3 =>
        rw [description_iff.mpr ⟨_, _, h1, h2, rfl⟩]
        exact ih.mpr ⟨_, h3, rfl⟩

theorem until_opens {l pre post : List Node} : Until Opens l pre post ↔ pre = l.takeWhile isText ∧ post = l.dropWhile isText :=
  until_iff text_iff

/-! ## References to models that come later -/

/-- The function does what the relation says, and adds to the reports. -/
def Traces {α : Type} (f : α → Reports → α × Reports) (R : α → α → List Payload.Warning → Option Problem → Prop) : Prop :=
  ∀ a r b r', f a r = (b, r') ↔ ∃ v e, R a b v e ∧ r' = ⟨r.warnings ++ v, e.or r.error⟩

theorem thread_traces {α : Type} {f : α → Reports → α × Reports} {R : α → α → List Payload.Warning → Option Problem → Prop} (h : Traces f R) :
    Traces (References.thread f) (Each R) := by
  intro as
  induction as with
  | nil =>
    intro r b r'
    rw [References.thread]
    constructor
    · intro h; cases h; exact ⟨[], none, .nil, by simp⟩
    · rintro ⟨v, e, h, rfl⟩; cases h; simp
  | cons a as ih =>
    intro r b r'
    rw [References.thread]
    constructor
    · intro hh
      cases hh
      obtain ⟨v, e, h1, h2⟩ := (h a r _ _).mp rfl
      obtain ⟨v', e', h3, h4⟩ := (ih (f a r).2 _ _).mp rfl
      refine ⟨_, _, .cons h1 h3, ?_⟩
      rw [h4, h2]
      simp [Option.or_assoc]
    · rintro ⟨v, e, hh, rfl⟩
      cases hh with
      | cons h1 h2 =>
        have e1 := (h a r _ _).mpr ⟨_, _, h1, rfl⟩
        have e2 := (ih (f a r).2 _ _).mpr ⟨_, _, h2, rfl⟩
        rw [e1] at e2 ⊢
        simp only at e2 ⊢
        rw [e2]
        simp [Option.or_assoc]

theorem overridden_iff {p m : References.Payload} {h : List Payload.Warning} : Overridden p m h ↔ h = ignoredHeaders .undefined m p := by
  have key : (!p.headers.isEmpty && m.headers.any (fun h => h.1 == References.contentType)) = true ↔
      p.headers ≠ [] ∧ ∃ h ∈ m.headers, h.1 = str "Content-Type" := by
    simp only [Bool.and_eq_true, Bool.not_eq_true', List.any_eq_true, beq_iff_eq, References.contentType, List.isEmpty_eq_false_iff]
  unfold ignoredHeaders
  constructor
  · intro hh
    cases hh with
    | yes h1 h2 h3 => rw [if_pos (key.mpr ⟨h1, _, h2, h3⟩)]
    | no h1 =>
      rw [if_neg]
      rw [key]
      rintro ⟨g1, x, g2, g3⟩
      rcases h1 with h1 | h1
      · exact g1 h1
      · exact h1 x g2 g3
  · rintro rfl
    split
    · rename_i hc
      obtain ⟨h1, x, h2, h3⟩ := key.mp hc
      exact .yes h1 h2 h3
    · rename_i hc
      refine .no ?_
      apply Classical.byContradiction
      intro hn
      rw [not_or] at hn
      apply hc
      rw [key]
      refine ⟨hn.1, ?_⟩
      apply Classical.byContradiction
      intro hx
      exact hn.2 fun h hh he => hx ⟨h, hh, he⟩

theorem filled_iff {p m q : References.Payload} : (Spec.References.Filled p m q ∧ q.refId = p.refId ∧ q.refState = .resolved) ↔
    q = References.assignReferred m { p with refState := .resolved } := by
  have hf := References.assign_filled p m p.refId .resolved
  constructor
  · rintro ⟨h, h1, h2⟩
    have g : ∀ (a b : References.Payload), a.name = b.name → a.attributes = b.attributes → a.description = b.description →
        a.parameters = b.parameters → a.body = b.body → a.schema = b.schema → a.headers = b.headers → a.refId = b.refId → a.refState = b.refState →
        a = b := by
      intro a b; cases a; cases b; simp only; intros; subst_vars; rfl
    apply g
    · exact h.name.trans hf.name.symm
    · exact h.attributes.trans hf.attributes.symm
    · exact h.description.trans hf.description.symm
    · exact h.parameters.trans hf.parameters.symm
    · exact h.body.trans hf.body.symm
    · exact h.schema.trans hf.schema.symm
    · exact h.headers.trans hf.headers.symm
    · exact h1
    · exact h2
  · rintro rfl
    exact ⟨hf, rfl, rfl⟩

theorem link_traces {t : Table} {k : PayloadKind} {check : References.Payload → List Payload.Warning} (hc : ∀ p c, Checked k p c ↔ c = check p) :
    Traces (link .undefined t check) (Link t k) := by
  intro p r q r'
  unfold link
  by_cases h1 : p.refId = [] ∨ p.refState ≠ .pending
  · rw [if_neg (by rcases h1 with h1 | h1 <;> simp [h1])]
    constructor
    · intro h; cases h; exact ⟨[], none, .other h1, by simp⟩
    · rintro ⟨v, e, h, rfl⟩
      cases h with
      | other => simp
      | found g1 g2 => rcases h1 with h1 | h1; exact absurd h1 g1; exact absurd g2 h1
      | missing g1 g2 => rcases h1 with h1 | h1; exact absurd h1 g1; exact absurd g2 h1
  · rw [not_or, Decidable.not_not] at h1
    obtain ⟨h1, h2⟩ := h1
    rw [if_pos (by simp [h1, h2])]
    unfold resolvePending
    cases hf : t.find p.refId with
    | none =>
      constructor
      · intro h; cases h
        exact ⟨_, _, .missing h1 h2 hf ((hc _ _).mpr rfl), rfl⟩
      · rintro ⟨v, e, h, rfl⟩
        cases h with
        | other g => rcases g with g | g; exact absurd g h1; exact absurd h2 g
        | found _ _ g => rw [hf] at g; cases g
        | missing _ _ _ g => rw [hc] at g; subst g; rfl
    | some m =>
      constructor
      · intro h; cases h
        obtain ⟨g1, g2, g3⟩ := (filled_iff (p := p) (m := m)).mpr rfl
        exact ⟨_, _, .found h1 h2 hf g1 g2 g3 (overridden_iff.mpr rfl) ((hc _ _).mpr rfl), by simp⟩
      · rintro ⟨v, e, h, rfl⟩
        cases h with
        | other g => rcases g with g | g; exact absurd g h1; exact absurd h2 g
        | found _ _ g g1 g2 g3 g4 g5 =>
          rw [hf] at g; cases g
          have := filled_iff.mp ⟨g1, g2, g3⟩
          subst this
          rw [overridden_iff] at g4
          rw [hc] at g5
          subst g4 g5
          simp
        | missing _ _ g => rw [hf] at g; cases g

theorem checked_request (p : References.Payload) (c : List Payload.Warning) : Checked .request p c ↔ c = Payload.checkRequest p := by
  rw [Payload.checked_iff (context := .request) (outer := []) (vs := []) (k := .request) rfl]
  constructor
  · intro h
    have := congrArg Payload.Data.warnings h
    simpa [Payload.payloadFinalize, PD.top, PD.set, Payload.Data.warn] using this.symm
  · rintro rfl; rfl

theorem checked_response (p : References.Payload) (c : List Payload.Warning) : Checked .response p c ↔ c = Payload.checkResponse p := by
  rw [Payload.checked_iff (context := .response) (outer := []) (vs := []) (k := .response) rfl]
  constructor
  · intro h
    have := congrArg Payload.Data.warnings h
    simpa [Payload.payloadFinalize, PD.top, PD.set, Payload.Data.warn] using this.symm
  · rintro rfl; rfl

theorem example_traces (t : Table) : Traces (linkExample .undefined t) (LinkExample t) := by
  intro x r y r'
  have hq := thread_traces (link_traces (t := t) checked_request)
  have hp := thread_traces (link_traces (t := t) checked_response)
  unfold linkExample
  constructor
  · intro h
    cases h
    obtain ⟨v, e, h1, h2⟩ := (hq x.requests r _ _).mp rfl
    obtain ⟨v', e', h3, h4⟩ := (hp x.responses _ _ _).mp rfl
    refine ⟨_, _, .mk h1 h3, ?_⟩
    rw [h4, h2]
    simp [Option.or_assoc]
  · rintro ⟨v, e, h, rfl⟩
    cases h with
    | mk h1 h2 =>
      have e1 := (hq _ r _ _).mpr ⟨_, _, h1, rfl⟩
      simp only [e1]
      have e2 := fun q => (hp _ q _ _).mpr ⟨_, _, h2, rfl⟩
      rw [e2]
      simp [Option.or_assoc]

theorem action_traces (t : Table) : Traces (linkAction .undefined t) (LinkAction t) := by
  intro x r y r'
  have hq := thread_traces (example_traces t)
  unfold linkAction
  constructor
  · intro h
    cases h
    obtain ⟨v, e, h1, h2⟩ := (hq x.examples r _ _).mp rfl
    exact ⟨_, _, .mk h1, h2⟩
  · rintro ⟨v, e, h, rfl⟩
    cases h with
    | mk h1 => simp only [(hq _ r _ _).mpr ⟨_, _, h1, rfl⟩]

theorem part_traces (t : Table) : Traces (linkPart .undefined t) (LinkPart t) := by
  intro x r y r'
  have hq := thread_traces (action_traces t)
  cases x with
  | copy x =>
    rw [linkPart]
    constructor
    · intro h; cases h; exact ⟨_, _, .copy, by simp⟩
    · rintro ⟨v, e, h, rfl⟩; cases h; simp
  | resource x =>
    rw [linkPart]
    unfold linkResource
    constructor
    · intro h
      cases h
      obtain ⟨v, e, h1, h2⟩ := (hq x.actions r _ _).mp rfl
      exact ⟨_, _, .resource h1, h2⟩
    · rintro ⟨v, e, h, rfl⟩
      cases h with
      | resource h1 => simp only [(hq _ r _ _).mpr ⟨_, _, h1, rfl⟩]

theorem element_traces (t : Table) : Traces (linkElement .undefined t) (LinkElement t) := by
  intro x r y r'
  have hp := part_traces t
  have hq := thread_traces hp
  cases x with
  | top x =>
    rw [linkElement]
    constructor
    · intro h
      cases h
      obtain ⟨v, e, h1, h2⟩ := (hp x r _ _).mp rfl
      exact ⟨_, _, .top h1, h2⟩
    · rintro ⟨v, e, h, rfl⟩
      cases h with
      | top h1 => simp only [(hp _ r _ _).mpr ⟨_, _, h1, rfl⟩]
  | group name es =>
    rw [linkElement]
    constructor
    · intro h
      cases h
      obtain ⟨v, e, h1, h2⟩ := (hq es r _ _).mp rfl
      exact ⟨_, _, .group h1, h2⟩
    · rintro ⟨v, e, h, rfl⟩
      cases h with
      | group h1 => simp only [(hq _ r _ _).mpr ⟨_, _, h1, rfl⟩]
  | data ts =>
    rw [linkElement]
    constructor
    · intro h; cases h; exact ⟨_, _, .data, by simp⟩
    · rintro ⟨v, e, h, rfl⟩; cases h; simp

/-! ## The document -/

theorem ahead_iff {s : Surroundings} {blocks : List Node} {d d' : Data} : ahead s blocks d = .ok d' ↔
    ∃ ds typos known e, Spec.Lookahead.Declarations [] blocks ds ∧ Spec.Lookahead.Mistakes blocks typos ∧ Tables s ds known e ∧
      d' = { d with warnings := d.warnings ++ typos.map .typo, known := known, error := e.or d.error } := by
  unfold ahead
  constructor
  · intro h
    cases hl : Lookahead.declarations blocks with
    | error e => rw [hl] at h; cases h
    | ok q =>
      obtain ⟨ds, typos⟩ := q
      obtain ⟨h1, h2⟩ := Lookahead.declarations_iff.mp hl
      rw [hl] at h
      simp only at h
      cases hb : buildTables ds with
      | none => rw [hb] at h; cases h
      | some r =>
        rw [hb] at h
        cases r with
        | error e => cases h; exact ⟨ds, typos, _, _, h1, h2, .wrong hb, rfl⟩
        | ok t => cases h; exact ⟨ds, typos, _, _, h1, h2, .fine hb, rfl⟩
  · rintro ⟨ds, typos, known, e, h1, h2, h3, rfl⟩
    rw [Lookahead.declarations_iff.mpr ⟨h1, h2⟩]
    simp only
    cases h3 with
    | fine hb => rw [hb]; rfl
    | wrong hb => rw [hb]; rfl

theorem nameless_iff {s : Surroundings} {d d' : Data} :
    (if !d.name.isEmpty then d
      else if s.requireName then { d with error := some .noName }
      else if !d.description.isEmpty then d.warn [.noName]
      else d) = d' ↔
    ∃ v e, Nameless s.requireName d.name d.description v e ∧ d' = { d with warnings := d.warnings ++ v, error := e.or d.error } := by
  by_cases h1 : d.name = []
  · rw [if_neg (by simp [h1])]
    by_cases h2 : s.requireName = true
    · rw [if_pos h2]
      constructor
      · rintro rfl; exact ⟨_, _, .required h1 h2, by simp⟩
      · rintro ⟨v, e, h, rfl⟩
        cases h with
        | named h => exact absurd h1 h
        | required => simp
        | reported _ h => rw [h2] at h; cases h
        | tolerated _ h => rw [h2] at h; cases h
    · rw [if_neg h2]
      rw [Bool.not_eq_true] at h2
      by_cases h3 : d.description = []
      · rw [if_neg (by simp [h3])]
        constructor
        · rintro rfl; exact ⟨_, _, .tolerated h1 h2 h3, by simp⟩
        · rintro ⟨v, e, h, rfl⟩
          cases h with
          | named h => exact absurd h1 h
          | required _ h => rw [h2] at h; cases h
          | reported _ _ h => exact absurd h3 h
          | tolerated => simp
      · rw [if_pos (by simpa using h3)]
        constructor
        · rintro rfl; exact ⟨_, _, .reported h1 h2 h3, by simp [Data.warn]⟩
        · rintro ⟨v, e, h, rfl⟩
          cases h with
          | named h => exact absurd h1 h
          | required _ h => rw [h2] at h; cases h
          | reported => simp [Data.warn]
          | tolerated _ _ h => exact absurd h h3
  · rw [if_pos (by simpa using h1)]
    constructor
    · rintro rfl; exact ⟨_, _, .named h1, by simp⟩
    · rintro ⟨v, e, h, rfl⟩
      cases h with
      | named => simp
      | required h => exact absurd h h1
      | reported h => exact absurd h h1
      | tolerated h => exact absurd h h1

/-- The data after metadata, name and description. -/
def opened (ms : List (Bytes × Bytes)) (mv : List Metadata.Warning) (name description : Bytes) : Data :=
  { metadata := ms, name := name, description := description, warnings := mv.map .metadata }

theorem finalize_iff {s : Surroundings} {d d' : Data} : (finalize s ⟨[], d⟩).data = d' ↔
    ∃ es lv e₁ nv e₂, Each (LinkElement d.table) d.elements es lv e₁ ∧ Nameless s.requireName d.name d.description nv e₂ ∧
      d' = { d with elements := es, warnings := d.warnings ++ lv.map .payload ++ nv, error := e₂.or (e₁.or d.error) } := by
  have tr := thread_traces (element_traces d.table)
  have e0 : (finalize s ⟨[], d⟩).data =
      (if !(linkAll .undefined d).name.isEmpty then linkAll .undefined d
        else if s.requireName then { linkAll .undefined d with error := some .noName }
        else if !(linkAll .undefined d).description.isEmpty then (linkAll .undefined d).warn [.noName]
        else linkAll .undefined d) := rfl
  rw [e0, nameless_iff]
  constructor
  · rintro ⟨nv, e₂, h1, rfl⟩
    obtain ⟨lv, e₁, h2, h3⟩ := (tr d.elements ⟨[], d.error⟩ _ _).mp rfl
    refine ⟨_, lv, e₁, nv, e₂, h2, h1, ?_⟩
    simp only [linkAll, h3, List.nil_append]
  · rintro ⟨es, lv, e₁, nv, e₂, h1, h2, rfl⟩
    have h3 := (tr d.elements ⟨[], d.error⟩ _ _).mpr ⟨_, _, h1, rfl⟩
    refine ⟨nv, e₂, h2, ?_⟩
    simp only [linkAll, h3, List.nil_append]

theorem rest_iff {s : Surroundings} {blocks : List Node} {ms : List (Bytes × Bytes)} {mv : List Metadata.Warning} {name desc : Bytes} {d : Data} :
    rest s blocks (opened ms mv name desc) = .ok d ↔
    ∃ ds typos known e₀ x ws es lv e₁ nv e₂, Spec.Lookahead.Declarations [] blocks ds ∧ Spec.Lookahead.Mistakes blocks typos ∧
      Tables s ds known e₀ ∧ Sections s ⟨[], [], known, e₀⟩ blocks x ws ∧ Each (LinkElement x.table) x.elements es lv e₁ ∧
      Nameless s.requireName name desc nv e₂ ∧
      d = ⟨ms, name, desc, es, mv.map .metadata ++ typos.map .typo ++ ws ++ lv.map .payload ++ nv, x.table, x.known, e₂.or (e₁.or x.error)⟩ := by
  unfold rest
  constructor
  · intro h
    cases ha : ahead s blocks (opened ms mv name desc) with
    | error e => rw [ha] at h; cases h
    | ok d₁ =>
      rw [ha] at h
      simp only at h
      obtain ⟨ds, typos, known, e₀, h1, h2, h3, rfl⟩ := ahead_iff.mp ha
      have e : ({ opened ms mv name desc with
          warnings := (opened ms mv name desc).warnings ++ typos.map .typo, known := known, error := e₀.or (opened ms mv name desc).error } : Data) =
          data ms name desc ⟨[], [], known, e₀⟩ (mv.map .metadata ++ typos.map .typo) := by
        simp only [opened, data, Option.or_none]
      rw [e] at h
      split at h
      · cases h
      · rename_i hm
        obtain ⟨x, ws, h4, -, rfl⟩ := (sections_iff (Nat.le_refl _)).mp hm
        injection h with h
        obtain ⟨es, lv, e₁, nv, e₂, h5, h6, rfl⟩ := finalize_iff.mp h
        exact ⟨ds, typos, known, e₀, x, ws, es, lv, e₁, nv, e₂, h1, h2, h3, h4, h5, h6, rfl⟩
  · rintro ⟨ds, typos, known, e₀, x, ws, es, lv, e₁, nv, e₂, h1, h2, h3, h4, h5, h6, rfl⟩
    rw [ahead_iff.mpr ⟨ds, typos, known, e₀, h1, h2, h3, rfl⟩]
    have e : ({ opened ms mv name desc with
        warnings := (opened ms mv name desc).warnings ++ typos.map .typo, known := known, error := e₀.or (opened ms mv name desc).error } : Data) =
        data ms name desc ⟨[], [], known, e₀⟩ (mv.map .metadata ++ typos.map .typo) := by
      simp only [opened, data, Option.or_none]
    simp only [e]
    rw [(sections_iff (Nat.le_refl _)).mpr ⟨x, ws, h4, rfl, rfl⟩]
    simp only
    congr 1
    exact finalize_iff.mpr ⟨es, lv, e₁, nv, e₂, h5, h6, rfl⟩

theorem afterTitle_iff {s : Surroundings} {blocks : List Node} {d d' : Data} : afterTitle s blocks d = .ok d' ↔
    ∃ e, Describes (texts s) d.description (blocks.takeWhile isText) e ∧ rest s (blocks.dropWhile isText) { d with description := e } = .ok d' := by
  unfold afterTitle
  constructor
  · intro h
    split at h
    · cases h
    · rename_i hd
      obtain ⟨e, h1, rfl⟩ := describes_iff.mp hd
      exact ⟨e, h1, h⟩
  · rintro ⟨e, h1, h2⟩
    rw [describes_iff.mpr ⟨e, h1, rfl⟩]
    exact h2

/-- The document after the metadata. -/
theorem intro_iff {s : Surroundings} {ns : List Node} (hns : ns ≠ []) {d : Data} : docResult s ns = .ok d ↔
    ∃ ms mv body name desc blocks, Head ns ms mv body ∧ Intro s body name desc blocks ∧ rest s blocks (opened ms mv name desc) = .ok d := by
  obtain ⟨ms, mv, h1, h2, h3⟩ := head_exists ns {}
  have ho : withMetadata {} ms mv = opened ms mv [] [] := by simp [withMetadata, opened]
  rw [ho] at h2
  unfold docResult
  rw [if_neg hns]
  simp only
  generalize metadata ns {} = m at h1 h2 h3
  obtain ⟨k, d₀, t⟩ := m
  simp only at h1 h2 h3 ⊢
  subst h2
  have hu : ∀ {ms' mv' body}, Head ns ms' mv' body → ms' = ms ∧ mv' = mv ∧ body = ns.drop k := fun h => head_unique h h1
  cases hb : ns.drop k with
  | nil =>
    simp only
    rw [hb] at h1 hu
    constructor
    · intro h; exact ⟨_, _, _, _, _, _, h1, .nothing, h⟩
    · rintro ⟨ms', mv', body, name, desc, blocks, g1, g2, g3⟩
      obtain ⟨rfl, rfl, rfl⟩ := hu g1
      cases g2
      exact g3
  | cons n r =>
    simp only
    rw [hb] at h1 hu h3
    simp only [List.head?_cons, Option.some.injEq, exists_eq_left'] at h3
    have ht : (t = false ∧ n.kind = .header) ↔ n.kind = .header := by
      refine ⟨And.right, fun h => ⟨?_, h⟩⟩
      rw [← Bool.not_eq_true, h3, h]
      decide
    by_cases hh : n.kind = .header
    · rw [if_pos (ht.mpr hh)]
      by_cases hop : Opens n
      · rw [if_pos ((opens_iff n).mpr hop)]
        constructor
        · intro h; exact ⟨_, _, _, _, _, _, h1, .sections hop, h⟩
        · rintro ⟨ms', mv', body, name, desc, blocks, g1, g2, g3⟩
          obtain ⟨rfl, rfl, rfl⟩ := hu g1
          cases g2 with
          | sections => exact g3
          | title _ h => exact absurd hop h
          | text h => exact absurd hh h
      · rw [if_neg (by rw [opens_iff]; exact hop), afterTitle_iff]
        constructor
        · rintro ⟨e, g1, g2⟩
          exact ⟨_, _, _, _, _, _, h1, .title hh hop (trim_iff.mp rfl) (until_opens.mpr ⟨rfl, rfl⟩) g1, g2⟩
        · rintro ⟨ms', mv', body, name, desc, blocks, g1, g2, g3⟩
          obtain ⟨rfl, rfl, rfl⟩ := hu g1
          cases g2 with
          | sections h => exact absurd h hop
          | title _ _ h4 h5 h6 =>
            obtain ⟨rfl, rfl⟩ := until_opens.mp h5
            rw [← trim_iff] at h4
            subst h4
            exact ⟨_, h6, g3⟩
          | text h => exact absurd hh h
    · rw [if_neg (by rw [ht]; exact hh)]
      constructor
      · intro h
        split at h
        · cases h
        · rename_i hd
          obtain ⟨v, e, g1, g2, rfl⟩ := description_iff.mp hd
          obtain ⟨e', g3, g4⟩ := afterTitle_iff.mp h
          exact ⟨_, _, _, _, _, _, h1, .text hh (until_opens.mpr ⟨rfl, rfl⟩) (.cons g1 g2 g3), g4⟩
      · rintro ⟨ms', mv', body, name, desc, blocks, g1, g2, g3⟩
        obtain ⟨rfl, rfl, rfl⟩ := hu g1
        cases g2 with
        | sections h => exact absurd (opens_header h) hh
        | title h => exact absurd h hh
        | text _ h5 h6 =>
          obtain ⟨rfl, rfl⟩ := until_opens.mp h5
          cases h6 with
          | cons g4 g5 g6 =>
            rw [description_iff.mpr ⟨_, _, g4, g5, rfl⟩]
            exact afterTitle_iff.mpr ⟨_, g6, g3⟩

/-- What is observed of the data. -/
def outcomeOf (d : Data) : Spec.Document.Outcome := ⟨d.metadata, d.name, d.description, d.elements, d.warnings, d.error⟩

theorem document_iff {s : Surroundings} {ns : List Node} {o : Spec.Document.Outcome} :
    (∃ d, docResult s ns = .ok d ∧ outcomeOf d = o) ↔ DocumentRead s ns o := by
  by_cases hns : ns = []
  · subst hns
    constructor
    · rintro ⟨d, h, rfl⟩
      unfold docResult at h
      rw [if_pos rfl] at h
      cases h
      exact .nothing
    · intro h
      cases h with
      | nothing => exact ⟨{}, rfl, rfl⟩
      | document h => exact absurd rfl h
  · constructor
    · rintro ⟨d, h, rfl⟩
      obtain ⟨ms, mv, body, name, desc, blocks, h1, h2, h3⟩ := (intro_iff hns).mp h
      obtain ⟨ds, typos, known, e₀, x, ws, es, lv, e₁, nv, e₂, g1, g2, g3, g4, g5, g6, rfl⟩ := rest_iff.mp h3
      exact .document hns h1 h2 g1 g2 g3 g4 g5 g6
    · intro h
      cases h with
      | nothing => exact absurd rfl hns
      | document _ h1 h2 g1 g2 g3 g4 g5 g6 =>
        exact ⟨_, (intro_iff hns).mpr ⟨_, _, _, _, _, _, h1, h2, rest_iff.mpr ⟨_, _, _, _, _, _, _, _, _, _, _, g1, g2, g3, g4, g5, g6, rfl⟩⟩, rfl⟩

end Verif.Document
