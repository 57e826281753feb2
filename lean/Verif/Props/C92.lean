import Verif.Proof.DocumentSpec
import Verif.Props.C20_C22

/-! # C92: the whole document -/

namespace Verif.Props
open Verif Verif.Text Verif.Section Verif.Recognition Verif.Spec Verif.Spec.Recognition Verif.Spec.Payload Verif.Spec.Document
open Verif.Spec.DataGroup (ResourceHeading GroupHeading DataHeading Types)
open Verif.Spec.Group (GroupRead)
open Verif.Document (Element Warning Problem Surroundings parseDocument docResult document_parse document_iff outcomeOf ended)
open Verif.NamedTypes (Decl buildTables)
open Verif.References (Table)

/-- C92: what a document gives, what is reported, and the error, is what `DocumentRead` says. -/
theorem C92_document (s : Surroundings) (ns : List Node) (o : Outcome) :
    (∃ j pd, parseDocument s ns = .ok (j, pd) ∧ outcomeOf pd.data = o) ↔ DocumentRead s ns o := by
  rw [← document_iff, document_parse]
  constructor
  · rintro ⟨j, pd, h, rfl⟩
    cases hd : docResult s ns with
    | error e => rw [hd] at h; cases h
    | ok d => rw [hd] at h; cases h; exact ⟨d, rfl, rfl⟩
  · rintro ⟨d, h, rfl⟩
    exact ⟨ns.length, ⟨[], d⟩, by rw [h]; rfl, rfl⟩

/-- C92: the blocks determine what the document gives. -/
theorem C92_one (s : Surroundings) (ns : List Node) (o o' : Outcome) (h : DocumentRead s ns o) (h' : DocumentRead s ns o') : o = o' := by
  obtain ⟨j, pd, e, rfl⟩ := (C92_document s ns o).mpr h
  obtain ⟨j', pd', e', rfl⟩ := (C92_document s ns o').mpr h'
  rw [e] at e'
  cases e'
  rfl

/-- C92: every block is read: the parser ends after the last one. -/
theorem C92_whole (s : Surroundings) (ns : List Node) (j : Nat) (pd : PD Document.Data) (h : parseDocument s ns = .ok (j, pd)) :
    j = ns.length ∧ pd.context = [] := by
  rw [document_parse] at h
  cases hd : docResult s ns with
  | error e => rw [hd] at h; cases h
  | ok d => rw [hd] at h; cases h; exact ⟨rfl, rfl⟩

/-! ## Sections follow each other without a gap -/

theorem group_leaves {g : Group.Surroundings} {x y : Spec.Group.State} {ns mid : List Node} {ws : List Group.Warning}
    (h : Spec.Group.Sections g x ns mid y ws) : ∀ n, mid.head? = some n → Spec.Group.Closes n := by
  induction h with
  | done => intro n h; cases h
  | closed h => intro n hn; cases hn; exact h
  | resource _ _ _ _ ih => exact ih
  | action _ _ _ _ _ ih => exact ih
  | ignored _ _ _ _ _ ih => exact ih

theorem read_leaves {g : Group.Surroundings} {t : Table} {e : Option Resource.Problem} {sig : Node} {ns mid : List Node} {name : Bytes}
    {y : Spec.Group.State} {ws : List Group.Warning} (h : GroupRead g t e sig ns mid name y ws) : ∀ n, mid.head? = some n → Opens n := by
  have key : ∀ n, mid.head? = some n → Spec.Group.Closes n := by
    cases h with
    | resources _ h => exact group_leaves h
    | group _ _ _ _ h => exact group_leaves h
  intro n hn
  obtain ⟨h1, -, -, h | h⟩ := key n hn
  · exact .inr (.inl ⟨h1, h⟩)
  · exact .inr (.inr ⟨h1, h⟩)

theorem types_leave {g : DataGroup.Surroundings} {ts ts' : List DataStructure.NamedType} {k k' : Mson.Context} {ns mid : List Node}
    {ws : List DataGroup.Warning} (h : Types g ts k ns mid ts' k' ws) : ∀ n, mid.head? = some n → Opens n := by
  induction h with
  | done => intro n h; cases h
  | closed h =>
    intro n hn; cases hn
    rcases h with ⟨_, h | ⟨_, h | h⟩⟩
    · exact .inl h
    · exact .inr (.inl h)
    · exact .inr (.inr h)
  | type _ _ _ _ ih => exact ih
  | twice _ _ _ _ ih => exact ih
  | ignored _ _ _ _ ih => exact ih

theorem sections_ignore {s : Surroundings} {x z : State} {ns : List Node} {ws : List Warning} (h : Sections s x ns z ws) :
    (∀ n, ns.head? = some n → Opens n) → ∀ w, Warning.ignored w ∉ ws := by
  induction h with
  | done => intro _ w; simp
  | resource _ _ hr _ _ ih =>
    intro _ w hw
    rcases List.mem_append.mp hw with hw | hw
    · simp at hw
    · exact ih (read_leaves hr) w hw
  | group _ _ _ hr _ hb _ ih =>
    intro _ w hw
    rcases List.mem_append.mp hw with hw | hw
    · rcases List.mem_append.mp hw with hw | hw
      · simp at hw
      · cases hb <;> simp at hw
    · exact ih (read_leaves hr) w hw
  | data _ _ _ _ hr _ ih =>
    intro _ w hw
    rcases List.mem_append.mp hw with hw | hw
    · simp at hw
    · exact ih (types_leave hr) w hw
  | ignored h => intro ho; exact absurd (ho _ rfl) h

theorem until_head {l pre post : List Node} (h : Until Opens l pre post) : ∀ n, post.head? = some n → Opens n := by
  obtain ⟨rfl, rfl⟩ := Document.until_opens.mp h
  intro n hn
  have := List.head?_dropWhile_not Document.isText l
  rw [hn] at this
  simp only at this
  apply Classical.byContradiction
  intro hno
  rw [(Document.text_iff n).mpr hno] at this
  cases this

theorem intro_leaves {s : Surroundings} {body blocks : List Node} {name d : Bytes} (h : Intro s body name d blocks) :
    ∀ n, blocks.head? = some n → Opens n := by
  cases h with
  | nothing => intro n h; cases h
  | sections h => intro n hn; cases hn; exact h
  | title _ _ _ h => exact until_head h
  | text _ h => exact until_head h

/-- C92: no block is ignored between the sections of a document: all that comes after the description is part of a resource, of a group, or of data
structures, where it is read or reported. -/
theorem C92_no_gap (s : Surroundings) (ns : List Node) (o : Outcome) (h : DocumentRead s ns o) (w : Payload.Warning) : .ignored w ∉ o.warnings := by
  cases h with
  | nothing => simp
  | document _ _ h2 _ _ _ h4 _ h6 =>
    intro hw
    simp only [List.mem_append, List.mem_map, reduceCtorEq, and_false, exists_false, false_or, or_false] at hw
    rcases hw with hw | hw
    · exact sections_ignore h4 (intro_leaves h2) w hw
    · cases h6 <;> simp at hw

/-! ## Resources outside of groups -/

theorem group_resources {g : Group.Surroundings} {x y : Spec.Group.State} {ns mid : List Node} {ws : List Group.Warning}
    (h : Spec.Group.Sections g x ns mid y ws) : (∀ t, .copy t ∉ x.elements) → ∀ t, .copy t ∉ y.elements := by
  induction h with
  | done => exact id
  | closed => exact id
  | resource _ _ _ _ ih =>
    intro h
    apply ih
    intro t ht
    rcases List.mem_append.mp ht with ht | ht
    · exact h t ht
    · simp at ht
  | action _ _ _ _ _ ih => exact ih
  | ignored _ _ _ _ _ ih => exact ih

theorem sections_top {s : Surroundings} {x z : State} {ns : List Node} {ws : List Warning} (h : Sections s x ns z ws) :
    (∀ t, .top (.copy t) ∉ x.elements) → ∀ t, .top (.copy t) ∉ z.elements := by
  induction h with
  | done => exact id
  | resource h1 _ hr _ _ ih =>
    intro h
    apply ih
    intro t ht
    rcases List.mem_append.mp ht with ht | ht
    · exact h t ht
    · cases hr with
      | resources _ hr =>
        simp only [List.mem_map, Element.top.injEq, exists_eq_right] at ht
        exact group_resources hr (by simp) t ht
      | group h => exact absurd h1 h
  | group _ _ _ _ _ _ _ ih =>
    intro h
    apply ih
    intro t ht
    rcases List.mem_append.mp ht with ht | ht
    · exact h t ht
    · simp at ht
  | data _ _ _ _ _ _ ih =>
    intro h
    apply ih
    intro t ht
    rcases List.mem_append.mp ht with ht | ht
    · exact h t ht
    · simp at ht
  | ignored _ _ _ ih => exact ih

theorem each_mem {α : Type} {R : α → α → List Payload.Warning → Option Problem → Prop} {as bs : List α} {v : List Payload.Warning}
    {e : Option Problem} (h : Each R as bs v e) : (∀ b ∈ bs, ∃ a ∈ as, ∃ v e, R a b v e) ∧ (∀ a ∈ as, ∃ b ∈ bs, ∃ v e', R a b v e' ∧ (e = none → e' = none)) := by
  induction h with
  | nil => exact ⟨fun _ h => (by cases h), fun _ h => (by cases h)⟩
  | cons h1 _ ih =>
    refine ⟨fun b hb => ?_, fun a ha => ?_⟩
    · rcases List.mem_cons.mp hb with rfl | hb
      · exact ⟨_, List.mem_cons_self, _, _, h1⟩
      · obtain ⟨a, ha, h⟩ := ih.1 b hb
        exact ⟨a, List.mem_cons_of_mem _ ha, h⟩
    · rcases List.mem_cons.mp ha with rfl | ha
      · exact ⟨_, List.mem_cons_self, _, _, h1, fun h => (Option.or_eq_none_iff.mp h).2⟩
      · obtain ⟨b, hb, v, e', h, he⟩ := ih.2 a ha
        exact ⟨b, List.mem_cons_of_mem _ hb, v, e', h, fun h => he (Option.or_eq_none_iff.mp h).1⟩

/-- C92: outside of groups there are resources and data structures only, no text. -/
theorem C92_resources (s : Surroundings) (ns : List Node) (o : Outcome) (h : DocumentRead s ns o) (t : Bytes) : .top (.copy t) ∉ o.elements := by
  cases h with
  | nothing => simp
  | document _ _ _ _ _ _ h4 h5 _ =>
    intro ht
    obtain ⟨a, ha, v, e, hl⟩ := (each_mem h5).1 _ ht
    cases hl with
    | top hl => cases hl; exact sections_top h4 (by simp) t ha

/-! ## References -/

theorem link_settled {t : Table} {k : PayloadKind} {p q : References.Payload} {v : List Payload.Warning} {e : Option Problem}
    (h : Link t k p q v e) : (q.refId = [] ∨ q.refState ≠ .pending) ∧
      (e = none → p.refId ≠ [] → p.refState = .pending → ∃ m, t.find p.refId = some m ∧ Spec.References.Filled p m q ∧ q.refState = .resolved) := by
  cases h with
  | other h => exact ⟨h, fun _ h1 h2 => by rcases h with h | h; exact absurd h h1; exact absurd h2 h⟩
  | found _ _ h h' _ hs => exact ⟨.inr (by rw [hs]; decide), fun _ _ _ => ⟨_, h, h', hs⟩⟩
  | missing => exact ⟨.inr (by simp), fun h => by cases h⟩

/-- Every payload after is some payload before, linked; and the other way round. -/
theorem part_links {t : Table} {a b : Group.Element} {v : List Payload.Warning} {e : Option Problem} (h : LinkPart t a b v e) :
    (∀ q ∈ payloadsOf b, ∃ k p v e, Link t k p q v e) ∧ (∀ p ∈ payloadsOf a, ∃ q ∈ payloadsOf b, ∃ k v e', Link t k p q v e' ∧ (e = none → e' = none)) := by
  cases h with
  | copy => exact ⟨fun _ h => (by cases h), fun _ h => (by cases h)⟩
  | resource h =>
    have h1 := each_mem h
    constructor
    · intro q hq
      simp only [payloadsOf, List.mem_flatMap, List.mem_append] at hq
      obtain ⟨b, hb, y, hy, hq⟩ := hq
      obtain ⟨a, ha, _, _, hl⟩ := h1.1 b hb
      cases hl with
      | mk hl =>
        obtain ⟨x, hx, _, _, hm⟩ := (each_mem hl).1 y hy
        cases hm with
        | mk m1 m2 =>
          rcases hq with hq | hq
          · obtain ⟨p, _, _, _, hk⟩ := (each_mem m1).1 q hq; exact ⟨_, _, _, _, hk⟩
          · obtain ⟨p, _, _, _, hk⟩ := (each_mem m2).1 q hq; exact ⟨_, _, _, _, hk⟩
    · intro p hp
      simp only [payloadsOf, List.mem_flatMap, List.mem_append] at hp ⊢
      obtain ⟨a, ha, x, hx, hp⟩ := hp
      obtain ⟨b, hb, _, _, hl, he⟩ := h1.2 a ha
      cases hl with
      | mk hl =>
        obtain ⟨y, hy, _, _, hm, he'⟩ := (each_mem hl).2 x hx
        cases hm with
        | mk m1 m2 =>
          rcases hp with hp | hp
          · obtain ⟨q, hq, _, _, hk, he''⟩ := (each_mem m1).2 p hp
            exact ⟨q, ⟨_, hb, _, hy, .inl hq⟩, _, _, _, hk, fun h => he'' (Option.or_eq_none_iff.mp (he' (he h))).2⟩
          · obtain ⟨q, hq, _, _, hk, he''⟩ := (each_mem m2).2 p hp
            exact ⟨q, ⟨_, hb, _, hy, .inr hq⟩, _, _, _, hk, fun h => he'' (Option.or_eq_none_iff.mp (he' (he h))).1⟩

theorem links {t : Table} {es fs : List Element} {v : List Payload.Warning} {e : Option Problem} (h : Each (LinkElement t) es fs v e) :
    (∀ q ∈ payloads fs, ∃ k p v e, Link t k p q v e) ∧ (∀ p ∈ payloads es, ∃ q ∈ payloads fs, ∃ k v e', Link t k p q v e' ∧ (e = none → e' = none)) := by
  have h1 := each_mem h
  constructor
  · intro q hq
    simp only [payloads, List.mem_flatMap] at hq
    obtain ⟨b, hb, hq⟩ := hq
    obtain ⟨a, ha, _, _, hl⟩ := h1.1 b hb
    cases hl with
    | top hl => exact (part_links hl).1 q hq
    | group hl =>
      obtain ⟨y, hy, hq⟩ := List.mem_flatMap.mp hq
      obtain ⟨x, hx, _, _, hm⟩ := (each_mem hl).1 y hy
      exact (part_links hm).1 q hq
    | data => cases hq
  · intro p hp
    simp only [payloads, List.mem_flatMap] at hp ⊢
    obtain ⟨a, ha, hp⟩ := hp
    obtain ⟨b, hb, _, _, hl, he⟩ := h1.2 a ha
    cases hl with
    | top hl =>
      obtain ⟨q, hq, k, v, e', hk, hn⟩ := (part_links hl).2 p hp
      exact ⟨q, ⟨_, hb, hq⟩, k, v, e', hk, fun h => hn (he h)⟩
    | group hl =>
      obtain ⟨x, hx, hp⟩ := List.mem_flatMap.mp hp
      obtain ⟨y, hy, _, _, hm, he'⟩ := (each_mem hl).2 x hx
      obtain ⟨q, hq, k, v, e', hk, hn⟩ := (part_links hm).2 p hp
      exact ⟨q, ⟨_, hb, List.mem_flatMap.mpr ⟨y, hy, hq⟩⟩, k, v, e', hk, fun h => hn (he' (he h))⟩
    | data => cases hp

/-- C92: no reference to a model is left pending. -/
theorem C92_settled (s : Surroundings) (ns : List Node) (o : Outcome) (h : DocumentRead s ns o) (p : References.Payload) (hp : p ∈ payloads o.elements) :
    p.refId = [] ∨ p.refState ≠ .pending := by
  cases h with
  | nothing => cases hp
  | document _ _ _ _ _ _ _ h5 _ =>
    obtain ⟨k, q, v, e, hl⟩ := (links h5).1 p hp
    exact (link_settled hl).1

/-! ## Documents without error -/

/-- C92: if there is no error, the declared types are distinct and their tables in order, every reference that was pending is filled from a model
of the document, and there is a name if one is required. -/
theorem C92_clean (s : Surroundings) (ns : List Node) (o : Outcome) (h : DocumentRead s ns o) (hns : ns ≠ []) (he : o.error = none) :
    ∃ blocks ds t x ws lv, Lookahead.Declarations [] blocks ds ∧ (ds.map (·.identifier)).Nodup ∧ buildTables ds = some (.ok t) ∧
      Sections s ⟨[], [], ⟨t.dep, t.base, [], none⟩, none⟩ blocks x ws ∧ x.error = none ∧ Each (LinkElement x.table) x.elements o.elements lv none ∧
      (∀ p ∈ payloads x.elements, p.refId ≠ [] → p.refState = .pending →
        ∃ m, ∃ q ∈ payloads o.elements, x.table.find p.refId = some m ∧ Spec.References.Filled p m q ∧ q.refState = .resolved) ∧
      (s.requireName = true → o.name ≠ []) := by
  have kept : ∀ {x z : State} {ns : List Node} {ws : List Warning}, Sections s x ns z ws → z.error = none → x.error = none := by
    intro x z ns ws h
    induction h with
    | done => exact id
    | resource _ _ _ _ _ ih => intro hz; exact (Option.or_eq_none_iff.mp (ih hz)).2
    | group _ _ _ _ _ _ _ ih => intro hz; exact (Option.or_eq_none_iff.mp (ih hz)).2
    | data _ _ _ _ _ _ ih => intro hz; exact (Option.or_eq_none_iff.mp (ih hz)).2
    | ignored _ _ _ ih => exact ih
  cases h with
  | nothing => exact absurd rfl hns
  | document _ _ _ g1 _ g3 g4 g5 g6 =>
    obtain ⟨h2, h1⟩ := Option.or_eq_none_iff.mp he
    obtain ⟨h1, h0⟩ := Option.or_eq_none_iff.mp h1
    subst h1 h2
    cases g3 with
    | wrong => have := kept g4 h0; cases this
    | fine hb =>
      refine ⟨_, _, _, _, _, _, g1, ?_, hb, g4, h0, g5, ?_, ?_⟩
      · apply Classical.byContradiction
        intro hn
        obtain ⟨e, hd⟩ := C21_duplicate _ hn
        rw [hb] at hd
        cases hd
      · intro p hp h1 h2
        obtain ⟨q, hq, k, v, e', hk, hn⟩ := (links g5).2 p hp
        obtain ⟨m, h3, h4, h5⟩ := (link_settled hk).2 (hn rfl) h1 h2
        exact ⟨m, q, hq, h3, h4, h5⟩
      · intro hr
        cases g6 with
        | named h => exact h
        | reported _ h => rw [hr] at h; cases h
        | tolerated _ h => rw [hr] at h; cases h

/-- C92: that the name is missing is the error exactly if there are blocks, a name is required and there is none. -/
theorem C92_required (s : Surroundings) (ns : List Node) (o : Outcome) (h : DocumentRead s ns o) :
    o.error = some .noName ↔ ns ≠ [] ∧ s.requireName = true ∧ o.name = [] := by
  have kept : ∀ {x z : State} {ns : List Node} {ws : List Warning}, Sections s x ns z ws → x.error ≠ some .noName → z.error ≠ some .noName := by
    intro x z ns ws h
    induction h with
    | done => exact id
    | @resource _ _ _ _ _ _ _ y _ _ _ _ _ _ _ _ ih => intro hz; apply ih; cases hy : y.error <;> simp [hy, hz]
    | @group _ _ _ _ _ _ _ y _ _ _ _ _ _ _ _ _ _ _ ih => intro hz; apply ih; cases hy : y.error <;> simp [hy, hz]
    | @data _ _ _ _ _ _ k _ _ _ _ _ _ _ _ _ ih => intro hz; apply ih; cases hy : k.error <;> simp [hy, hz]
    | ignored _ _ _ ih => exact ih
  have linked : ∀ {t : Table} {es fs : List Element} {v e}, Each (LinkElement t) es fs v e → e ≠ some .noName := by
    have each : ∀ {α : Type} {R : α → α → List Payload.Warning → Option Problem → Prop}, (∀ a b v e, R a b v e → e ≠ some .noName) →
        ∀ as bs v e, Each R as bs v e → e ≠ some .noName := by
      intro α R hR as bs v e h
      induction h with
      | nil => simp
      | @cons _ _ _ e₁ _ _ _ e₂ h1 _ ih =>
        have := hR _ _ _ _ h1
        cases e₂ with
        | none => simpa using this
        | some e => simpa using ih
    have l1 : ∀ {t k}, ∀ a b v e, Link t k a b v e → e ≠ some .noName := by
      intro t k a b v e h; cases h <;> simp
    have l2 : ∀ {t}, ∀ a b v e, LinkExample t a b v e → e ≠ some .noName := by
      intro t a b v e h
      cases h with
      | @mk _ _ _ e₁ _ e₂ h1 h2 =>
        have g1 := each l1 _ _ _ _ h1
        have g2 := each l1 _ _ _ _ h2
        cases e₂ with
        | none => simpa using g1
        | some e => simpa using g2
    have l3 : ∀ {t}, ∀ a b v e, LinkAction t a b v e → e ≠ some .noName := by
      intro t a b v e h; cases h with | mk h => exact each l2 _ _ _ _ h
    have l4 : ∀ {t}, ∀ a b v e, LinkPart t a b v e → e ≠ some .noName := by
      intro t a b v e h
      cases h with
      | copy => simp
      | resource h => exact each l3 _ _ _ _ h
    have l5 : ∀ {t}, ∀ a b v e, LinkElement t a b v e → e ≠ some .noName := by
      intro t a b v e h
      cases h with
      | top h => exact l4 _ _ _ _ h
      | group h => exact each l4 _ _ _ _ h
      | data => simp
    intro t es fs v e h
    exact each l5 _ _ _ _ h
  cases h with
  | nothing => simp
  | @document ns ms mv body name d blocks ds typos known e₀ x ws es lv e₁ nv e₂ hns _ _ _ _ g3 g4 g5 g6 =>
    have h0 : e₀ ≠ some .noName := by cases g3 <;> simp
    have hx := kept g4 h0
    have h1 := linked g5
    have h2 : e₁.or x.error ≠ some .noName := by cases e₁ with | none => simpa using hx | some e => simpa using h1
    cases g6 with
    | named h => simpa [h] using h2
    | required h h' => simp [h, h', hns]
    | reported h h' => simpa [h'] using h2
    | tolerated h h' => simpa [h'] using h2

/-! ## Groups that are defined twice -/

theorem names_linked {t : Table} {es fs : List Element} {v : List Payload.Warning} {e : Option Problem} (h : Each (LinkElement t) es fs v e) :
    groupNames fs = groupNames es := by
  induction h with
  | nil => rfl
  | cons h1 _ ih =>
    unfold groupNames at ih ⊢
    rw [List.filterMap_cons, List.filterMap_cons, ih]
    cases h1 <;> rfl

theorem names_mem {es : List Element} {name : Bytes} : name ∈ groupNames es ↔ ∃ gs, .group name gs ∈ es := by
  unfold groupNames
  rw [List.mem_filterMap]
  constructor
  · rintro ⟨e, he, h⟩
    cases e with
    | top => cases h
    | group g gs => cases h; exact ⟨gs, he⟩
    | data => cases h
  · rintro ⟨gs, h⟩; exact ⟨_, h, rfl⟩

theorem sections_twice {s : Surroundings} {x z : State} {ns : List Node} {ws : List Warning} (h : Sections s x ns z ws) (name : Bytes) :
    ws.count (.duplicateGroup name) + ((groupNames x.elements).count name - 1) = (groupNames z.elements).count name - 1 := by
  have none' : ∀ {α : Type} (f : α → Warning) (l : List α), (∀ a, f a ≠ .duplicateGroup name) → (l.map f).count (.duplicateGroup name) = 0 := by
    intro α f l hf
    rw [List.count_eq_zero]
    intro hm
    obtain ⟨a, _, ha⟩ := List.mem_map.mp hm
    exact hf a ha
  have tops : ∀ l : List Group.Element, groupNames (l.map .top) = [] := by
    intro l; induction l with
    | nil => rfl
    | cons a l ih => unfold groupNames at ih ⊢; rw [List.map_cons, List.filterMap_cons]; exact ih
  have app : ∀ a b : List Element, groupNames (a ++ b) = groupNames a ++ groupNames b := fun a b => List.filterMap_append
  induction h with
  | done => simp
  | resource _ _ _ _ _ ih =>
    rw [← ih, List.count_append, none' _ _ (by simp), app, tops, List.append_nil]
    simp
  | @group _ _ _ _ _ _ g y _ b _ _ _ _ _ _ _ hb _ ih =>
    rw [← ih, List.count_append, List.count_append, none' _ _ (by simp), app, List.count_append]
    have e : groupNames [.group g y.elements] = [g] := rfl
    rw [e]
    by_cases hg : g = name
    · subst hg
      cases hb with
      | yes hm =>
        have : 0 < (groupNames _).count g := List.count_pos_iff.mpr (names_mem.mpr ⟨_, hm⟩)
        simp only [List.count_cons_self, List.count_nil]
        omega
      | no hm =>
        have : (groupNames _).count g = 0 := List.count_eq_zero.mpr fun h => by
          obtain ⟨gs, h⟩ := names_mem.mp h; exact hm gs h
        simp only [List.count_cons_self, List.count_nil, this]
        omega
    · have h1 : List.count name [g] = 0 := by simp [hg]
      have h2 : b.count (.duplicateGroup name) = 0 := by
        cases hb with
        | yes => simp [hg]
        | no => rfl
      omega
  | data _ _ _ _ _ _ ih =>
    rw [← ih, List.count_append, none' _ _ (by simp), app]
    have e : ∀ ts, groupNames [.data ts] = [] := fun _ => rfl
    rw [e, List.append_nil]
    simp
  | ignored _ _ _ ih =>
    rw [← ih, List.count_append, none' _ _ (by simp)]
    simp

/-- C92: for every name, as many second groups are reported as there are groups of that name after the first. -/
theorem C92_groups (s : Surroundings) (ns : List Node) (o : Outcome) (h : DocumentRead s ns o) (name : Bytes) :
    o.warnings.count (.duplicateGroup name) = (groupNames o.elements).count name - 1 := by
  have none' : ∀ {α : Type} (f : α → Warning) (l : List α), (∀ a, f a ≠ .duplicateGroup name) → (l.map f).count (.duplicateGroup name) = 0 := by
    intro α f l hf
    rw [List.count_eq_zero]
    intro hm
    obtain ⟨a, _, ha⟩ := List.mem_map.mp hm
    exact hf a ha
  cases h with
  | nothing => rfl
  | document _ _ _ _ _ _ h4 h5 h6 =>
    have h := sections_twice h4 name
    simp only [names_linked h5]
    rw [← h]
    have hn : ∀ {v e r n d}, Nameless r n d v e → v.count (.duplicateGroup name) = 0 := by
      intro v e r n d h; cases h <;> rfl
    simp only [List.count_append, none' .metadata _ (by simp), none' .typo _ (by simp), none' .payload _ (by simp), hn h6]
    simp [groupNames]

end Verif.Props
