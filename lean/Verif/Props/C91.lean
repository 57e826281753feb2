import Verif.Props.C95
import Verif.Proof.Lookahead
import Verif.Props.C90
import Verif.Props.C20_C22

/-!
# C91: which types a document declares

`C91_lookahead` characterises the look-ahead by `Declarations` and `Mistakes` of `Spec/Lookahead.lean`; `C91_one`, `C91_decides`: the
specification leaves no choice, and the look-ahead gives something unless a signature is read past its end; `C91_declared`: what is declared,
block by block; `C91_group`: every type that the parser of a group of data structures reads is declared, if no header of an action comes before it
in the group; `C91_hidden`: otherwise it is not; `C91_name`: under the same name, if the header is one line and the name is no variable;
`C91_twice`: two declarations of the same name are an error of the document.
-/

namespace Verif.Props
open Verif Verif.Text Verif.Section Verif.Recognition Verif.Spec Verif.Spec.Recognition Verif.Lookahead Verif.Spec.Lookahead
open Verif.Spec.DataGroup (TypeHeading ResourceHeading ActionHeading GroupHeading DataHeading TypeHeader Types)
open Verif.Spec.MsonParser (TypeRead HeadingOf TypeBlocks PartUntil Signed)
open Verif.Spec.Payload (AttributesItem)
open Verif.NamedTypes (Decl buildTables)
open Verif.DataStructure (NamedType)
open Verif.Mson (Context)

/-- C91: the look-ahead over the blocks gives exactly the declarations in them and the mistaken headers. -/
theorem C91_lookahead (ns : List Node) (ds : List Decl) (ts : List Bytes) :
    declarations ns = .ok (ds, ts) ↔ Declarations [] ns ds ∧ Mistakes ns ts := declarations_iff

/-- C91: the blocks determine what is declared and reported. -/
theorem C91_one (ns : List Node) (ds ds' : List Decl) (ts ts' : List Bytes) (h : Declarations [] ns ds) (h' : Declarations [] ns ds')
    (g : Mistakes ns ts) (g' : Mistakes ns ts') : ds = ds' ∧ ts = ts' := by
  have e := (C91_lookahead ns ds ts).mpr ⟨h, g⟩
  have e' := (C91_lookahead ns ds' ts').mpr ⟨h', g'⟩
  rw [e] at e'
  cases e'
  exact ⟨rfl, rfl⟩

theorem mistakes_some (ns : List Node) : ∃ ts, Mistakes ns ts := by
  induction ns with
  | nil => exact ⟨_, .nil⟩
  | cons n ns ih =>
    obtain ⟨ts, h⟩ := ih
    by_cases hm : Mistaken n
    · exact ⟨_, .mistaken hm h⟩
    · exact ⟨_, .fine hm h⟩

/-- The text whose signature is read at a block that declares something. -/
def Subject (n : Node) (text : Bytes) : Prop := TypeHeader n ∧ text = n.text ∨ AttributesItem n ∧ ∃ c cs, n.children = c :: cs ∧ text = c.text

theorem declares_or (before : List Node) (n : Node) (h : Declaring before n) : (∃ d, Declares before n d) ∨
    ∃ text, Subject n text ∧ SignatureLine.TornLine Spec.LineKinds.typeLine text := by
  have go : ∀ text, (∃ sig ws, SignatureLine.SignatureLine Spec.LineKinds.typeLine text sig ws) ∨
      SignatureLine.TornLine Spec.LineKinds.typeLine text := by
    intro text
    by_cases ht : SignatureLine.TornLine Spec.LineKinds.typeLine text
    · exact .inr ht
    · exact .inl ((C95_some _ (by decide) text).mpr ht)
  rcases h with ⟨h1, h2⟩ | ⟨h1, g, name, h2, h3, h4⟩
  · rcases go n.text with ⟨sig, sw, hs⟩ | hs
    · exact .inl ⟨⟨_, (Mson.parseTypeDefinition unknown sig.attributes).1.spec.name, (Mson.parseTypeDefinition unknown sig.attributes).1.spec.nested⟩,
        .type h1 h2 ⟨sig, sw, hs, rfl, (specified _ _).mpr rfl⟩⟩
    · exact .inr ⟨_, .inl ⟨h2, rfl⟩, hs⟩
  · obtain ⟨c, cs, hc⟩ : ∃ c cs, n.children = c :: cs := by
      cases hc : n.children with
      | nil => exact absurd hc (item_list h1).2
      | cons c cs => exact ⟨c, cs, rfl⟩
    rcases go c.text with ⟨sig, sw, hs⟩ | hs
    · exact .inl ⟨⟨name, (Mson.parseTypeDefinition unknown sig.attributes).1.spec.name, (Mson.parseTypeDefinition unknown sig.attributes).1.spec.nested⟩,
        .attributes h2 h1 h3 h4 ⟨c, cs, sig, sw, hc, hs, rfl, (specified _ _).mpr rfl⟩⟩
    · exact .inr ⟨_, .inr ⟨h1, c, cs, hc, rfl⟩, hs⟩

/-- C91: the look-ahead gives something, unless the attributes of a block that declares a type are torn. -/
theorem C91_decides (ns : List Node) : (∃ ds ts, declarations ns = .ok (ds, ts)) ∨
    ∃ before n after text, ns = before ++ n :: after ∧ Declaring before n ∧ Subject n text ∧
      SignatureLine.TornLine Spec.LineKinds.typeLine text := by
  have key : ∀ (ns before : List Node), (∃ ds, Declarations before ns ds) ∨
      ∃ mid n after text, ns = mid ++ n :: after ∧ Declaring (before ++ mid) n ∧ Subject n text ∧
        SignatureLine.TornLine Spec.LineKinds.typeLine text := by
    intro ns
    induction ns with
    | nil => intro before; exact .inl ⟨_, .nil⟩
    | cons n ns ih =>
      intro before
      by_cases hD : Declaring before n
      · rcases declares_or before n hD with ⟨d, hd⟩ | ⟨text, h1, h2⟩
        · rcases ih (before ++ [n]) with ⟨ds, h⟩ | ⟨mid, m, after, text, rfl, h⟩
          · exact .inl ⟨_, .declares hd h⟩
          · exact .inr ⟨n :: mid, m, after, text, rfl, by simpa using h⟩
        · exact .inr ⟨[], n, ns, text, rfl, by simpa using hD, h1, h2⟩
      · rcases ih (before ++ [n]) with ⟨ds, h⟩ | ⟨mid, m, after, text, rfl, h⟩
        · exact .inl ⟨_, .skips hD h⟩
        · exact .inr ⟨n :: mid, m, after, text, rfl, by simpa using h⟩
  rcases key ns [] with ⟨ds, h⟩ | ⟨mid, n, after, text, h1, h2, h3⟩
  · obtain ⟨ts, ht⟩ := mistakes_some ns
    exact .inl ⟨ds, ts, (C91_lookahead ns ds ts).mpr ⟨h, ht⟩⟩
  · exact .inr ⟨mid, n, after, text, h1, by simpa using h2, h3⟩

/-- The place after these blocks. -/
def placeOf (before : List Node) : Place := before.foldl (fun p n => next n p) .nowhere

theorem placeOf_at (before : List Node) : At before (placeOf before) := by
  have : ∀ (l pre : List Node) (p : Place), At pre p → At (pre ++ l) (l.foldl (fun p n => next n p) p) := by
    intro l
    induction l with
    | nil => intro pre p h; simpa using h
    | cons n l ih =>
      intro pre p h
      have := ih (pre ++ [n]) (next n p) (at_next h)
      simpa using this
  exact this before [] .nowhere at_start

theorem declared_within {before ns : List Node} {ds : List Decl} (h : Declarations before ns ds) :
    ∀ d, d ∈ ds ↔ ∃ mid n after, ns = mid ++ n :: after ∧ Declares (before ++ mid) n d := by
  induction h with
  | nil =>
    intro d
    constructor
    · intro h; cases h
    · rintro ⟨mid, n, after, h, _⟩; simp at h
  | @declares before n ns d' ds hd _ ih =>
    intro d
    rw [List.mem_cons, ih]
    constructor
    · rintro (rfl | ⟨mid, m, after, rfl, h⟩)
      · exact ⟨[], n, ns, rfl, by simpa using hd⟩
      · exact ⟨n :: mid, m, after, rfl, by simpa using h⟩
    · rintro ⟨mid, m, after, he, h⟩
      cases mid with
      | nil =>
        obtain ⟨rfl, rfl⟩ := List.cons.inj he
        left
        rw [List.append_nil] at h
        have a : ∀ {d}, Declares before n d → visit n ⟨placeOf before, [], []⟩ = .ok ⟨next n (placeOf before), [d], []⟩ := fun hd =>
          (visit_iff (placeOf_at before)).mpr (.inl ⟨_, hd, rfl⟩)
        have e := a h
        rw [a hd] at e
        cases e
        rfl
      | cons x mid =>
        obtain ⟨rfl, rfl⟩ := List.cons.inj he
        exact .inr ⟨mid, m, after, rfl, by simpa using h⟩
  | @skips before n ns ds hd _ ih =>
    intro d
    rw [ih]
    constructor
    · rintro ⟨mid, m, after, rfl, h⟩
      exact ⟨n :: mid, m, after, rfl, by simpa using h⟩
    · rintro ⟨mid, m, after, he, h⟩
      cases mid with
      | nil =>
        obtain ⟨rfl, rfl⟩ := List.cons.inj he
        rw [List.append_nil] at h
        exact absurd (declares_declaring h) hd
      | cons x mid =>
        obtain ⟨rfl, rfl⟩ := List.cons.inj he
        exact ⟨mid, m, after, rfl, by simpa using h⟩

/-- C91: the declarations of a document are exactly those of its blocks: of the headers of types under `# Data Structures`, and of the
`+ Attributes` of named resources. -/
theorem C91_declared (ns : List Node) (ds : List Decl) (ts : List Bytes) (h : declarations ns = .ok (ds, ts)) (d : Decl) :
    d ∈ ds ↔ ∃ before n after, ns = before ++ n :: after ∧ Declares before n d := by
  have := declared_within ((C91_lookahead ns ds ts).mp h).1 d
  simpa using this

/-! ## The look-ahead and the parser of the groups -/

theorem include_list {n : Node} (h : Spec.MsonParser.IsInclude n) : n.kind = .listItem := by
  obtain ⟨_, _, h, _⟩ := h; exact h.1
theorem oneOf_list {n : Node} (h : Spec.MsonParser.IsOneOf n) : n.kind = .listItem := by
  obtain ⟨_, ⟨_, _, h, _⟩, _⟩ := h; exact h.1

theorem part_headers {w : MsonParser.World} {t : SectionType} {b : Mson.Base} {v v' : Bytes} {es es' : List DataStructure.Element} {types types' : Context}
    {ns rest : List Node} {ws : List MsonParser.Warning} (h : PartUntil w t b v es types ns v' es' types' ws rest) :
    ∃ mid, ns = mid ++ rest ∧ ∀ m ∈ mid, m.kind ≠ .header := by
  induction h with
  | done => exact ⟨[], rfl, by simp⟩
  | @element _ _ _ n _ _ _ _ _ _ _ _ _ hg _ ih =>
    obtain ⟨mid, rfl, h⟩ := ih
    refine ⟨n :: mid, rfl, fun m hm => ?_⟩
    cases hm with
    | tail _ hm => exact h m hm
    | head =>
      have : n.kind = .listItem := by
        cases hg with
        | property h _ _ => exact h.1
        | value h _ _ => exact h.1
        | include_ h _ _ => exact include_list h
        | oneOf h _ _ => exact oneOf_list h
      rw [this]; decide
  | @text _ _ _ n _ _ _ _ _ _ _ _ _ ht _ _ ih =>
    obtain ⟨mid, rfl, h⟩ := ih
    refine ⟨n :: mid, rfl, fun m hm => ?_⟩
    cases hm with
    | tail _ hm => exact h m hm
    | head =>
      rcases ht with ht | ht
      · exact ht.1
      · rw [ht.1]; decide
  | closes => exact ⟨[], rfl, by simp⟩

theorem heading_type {n : Node} {t : SectionType} (h : HeadingOf n t) : TypeHeading n := by
  unfold Spec.DataGroup.TypeHeading TypeSectionForm
  cases h with
  | sample h1 h2 h3 h4 => exact ⟨h1, _, _, h2, h3, h4.elim .inl fun h => .inr (.inl h)⟩
  | items h1 h2 h3 h4 => exact ⟨h1, _, _, h2, h3, .inr (.inr (.inl h4))⟩
  | properties h1 h2 h3 h4 => exact ⟨h1, _, _, h2, h3, .inr (.inr (.inr h4))⟩

theorem adds_not {w : MsonParser.World} {b : Mson.Base} {n : Node} {types types' : Context} {p : Spec.MsonParser.Piece} {ws : List MsonParser.Warning}
    (h : Spec.MsonParser.Adds w b n types p types' ws) (hp : ¬ ∃ t, Spec.MsonParser.IsPart n t) : n.kind ≠ .header := by
  have l : n.kind = .listItem → n.kind ≠ .header := fun h => by rw [h]; decide
  cases h with
  | property h => exact l h.1
  | value h => exact l h.1
  | include_ h => exact l (include_list h)
  | mismatch h => exact l (include_list h)
  | oneOf h => exact l (oneOf_list h)
  | part h => exact absurd ⟨_, h⟩ hp
  | ignored h => exact absurd ⟨_, h⟩ hp
  | text h => exact h.1

theorem blocks_headers {w : MsonParser.World} {b : Mson.Base} {ss ss' : List MsonParser.TypeSection} {types types' : Context}
    {ns rest : List Node} {ws : List MsonParser.Warning} (h : TypeBlocks w b ss types ns ss' types' ws rest) :
    ∃ mid, ns = mid ++ rest ∧ ∀ m ∈ mid, m.kind = .header → TypeHeading m := by
  have add : ∀ {n : Node} {mid : List Node}, (n.kind = .header → TypeHeading n) → (∀ m ∈ mid, m.kind = .header → TypeHeading m) →
      ∀ m ∈ n :: mid, m.kind = .header → TypeHeading m := by
    intro n mid h1 h2 m hm
    cases hm with
    | head => exact h1
    | tail _ hm => exact h2 m hm
  induction h with
  | done => exact ⟨[], rfl, by simp⟩
  | member _ hp ha _ _ ih =>
    obtain ⟨mid, rfl, h⟩ := ih
    exact ⟨_ :: mid, rfl, add (fun hk => absurd hk (adds_not ha hp)) h⟩
  | describe hk _ _ _ _ ih =>
    obtain ⟨mid, rfl, h⟩ := ih
    exact ⟨_ :: mid, rfl, add (fun h => absurd h hk) h⟩
  | heading hh _ _ ih =>
    obtain ⟨mid, hm, h⟩ := ih
    cases hh with
    | mk h1 _ _ h4 =>
      obtain ⟨mid', hm', h'⟩ := part_headers h4
      subst hm'
      subst hm
      refine ⟨_ :: (mid' ++ mid), by simp, add (fun _ => heading_type h1) fun m hm => ?_⟩
      rcases List.mem_append.mp hm with hm | hm
      · exact fun hk => absurd hk (h' m hm)
      · exact h m hm
  | misplaced => exact ⟨[], rfl, by simp⟩
  | halt => exact ⟨[], rfl, by simp⟩

theorem type_headers {w : MsonParser.World} {types types' : Context} {n : Node} {ns rest : List Node} {t : NamedType} {ws : List MsonParser.Warning}
    (h : TypeRead w types n ns t types' ws rest) : ∃ mid, ns = mid ++ rest ∧ ∀ m ∈ mid, m.kind = .header → TypeHeading m := by
  cases h with
  | mk _ _ _ hc =>
    cases hc with
    | blocks _ hb => exact blocks_headers hb
    | text ht _ hb =>
      obtain ⟨mid, rfl, h⟩ := blocks_headers hb
      refine ⟨_ :: mid, rfl, fun m hm hk => ?_⟩
      cases hm with
      | head => exact absurd hk ht.1
      | tail _ hm => exact h m hm hk

/-- C91: in the part of the document that a group of data structures takes, the headers are those of types, of sections of types, and of actions,
which the group ignores. -/
theorem C91_within_group (s : DataGroup.Surroundings) (known known' : Context) (ts ts' : List NamedType) (blocks rest : List Node)
    (ws : List DataGroup.Warning) (h : Types s ts known blocks rest ts' known' ws) :
    ∃ mid, blocks = mid ++ rest ∧ ∀ m ∈ mid, m.kind = .header → TypeHeader m ∨ TypeHeading m ∨ ActionHeading m := by
  have read : ∀ {n : Node} {ns mid₁ mid rest : List Node}, TypeHeader n → ns = mid₁ ++ (mid ++ rest) → (∀ m ∈ mid₁, m.kind = .header → TypeHeading m) →
      (∀ m ∈ mid, m.kind = .header → TypeHeader m ∨ TypeHeading m ∨ ActionHeading m) →
      ∃ mid, n :: ns = mid ++ rest ∧ ∀ m ∈ mid, m.kind = .header → TypeHeader m ∨ TypeHeading m ∨ ActionHeading m := by
    rintro n ns mid₁ mid rest hn rfl h1 h2
    refine ⟨n :: (mid₁ ++ mid), by simp, fun m hm hk => ?_⟩
    cases hm with
    | head => exact .inl hn
    | tail _ hm =>
      rcases List.mem_append.mp hm with hm | hm
      · exact .inr (.inl (h1 m hm hk))
      · exact h2 m hm hk
  induction h with
  | done => exact ⟨[], rfl, by simp⟩
  | closed hc => exact ⟨[], rfl, by simp⟩
  | type hn hr _ _ ih =>
    obtain ⟨mid, rfl, h⟩ := ih
    obtain ⟨mid₁, h1, h2⟩ := type_headers hr
    exact read hn h1 h2 h
  | twice hn hr _ _ ih =>
    obtain ⟨mid, rfl, h⟩ := ih
    obtain ⟨mid₁, h1, h2⟩ := type_headers hr
    exact read hn h1 h2 h
  | @ignored _ _ n _ _ _ _ _ _ hn hc _ _ ih =>
    obtain ⟨mid, rfl, h⟩ := ih
    refine ⟨n :: mid, rfl, fun m hm hk => ?_⟩
    cases hm with
    | tail _ hm => exact h m hm hk
    | head =>
      unfold Spec.DataGroup.Closes at hc
      unfold Spec.DataGroup.TypeHeader at hn
      by_cases h1 : TypeHeading n
      · exact .inr (.inl h1)
      · by_cases h2 : ActionHeading n
        · exact .inr (.inr h2)
        · exfalso
          by_cases h3 : ResourceHeading n
          · exact hc ⟨h1, .inl h3⟩
          · by_cases h4 : GroupHeading n
            · exact hc ⟨h1, .inr ⟨h2, .inl h4⟩⟩
            · by_cases h5 : DataHeading n
              · exact hc ⟨h1, .inr ⟨h2, .inr h5⟩⟩
              · exact hn ⟨hk, h1, h3, h2, h4, h5⟩

/-- C91: every type of a group of data structures is declared, if no header of an action comes before it in the group: the blocks `a` are those
between `# Data Structures` and the header `n` of the type. -/
theorem C91_group (s : DataGroup.Surroundings) (known known' : Context) (us : List NamedType) (pre a b rest : List Node) (dh n : Node)
    (ws : List DataGroup.Warning) (ds : List Decl) (ts : List Bytes)
    (hd : DataStart dh) (h : Types s [] known (a ++ n :: b ++ rest) rest us known' ws) (hn : TypeHeader n)
    (ha : ∀ m ∈ a, ActionHeading m → TypeHeading m) (hl : declarations (pre ++ dh :: (a ++ n :: b ++ rest)) = .ok (ds, ts)) :
    ∃ d ∈ ds, HeaderDeclares n d := by
  obtain ⟨mid, he, hm⟩ := C91_within_group s known known' [] us _ rest ws h
  have he := List.append_cancel_right he
  subst he
  have hin : InData (pre ++ dh :: a) := ⟨pre, dh, a, rfl, hd, fun m hma hk => by
    rcases hm m (List.mem_append_left _ hma) hk with h | h | h
    · exact .inl h
    · exact .inr (.inl h)
    · exact .inr (.inl (ha m hma h))⟩
  have hD := declared_within ((C91_lookahead _ ds ts).mp hl).1
  rcases declares_or (pre ++ dh :: a) n (.inl ⟨hin, hn⟩) with ⟨d, hd'⟩ | ⟨text, h1, h2⟩
  · refine ⟨d, (hD d).mpr ⟨pre ++ dh :: a, n, b ++ rest, by simp, by simpa using hd'⟩, ?_⟩
    cases hd' with
    | type _ _ h => exact h
    | attributes _ h _ _ _ => exact absurd hn.1 (by rw [(item_list h).1]; decide)
  · exfalso
    rcases h1 with ⟨_, rfl⟩ | ⟨h1, _⟩
    · obtain ⟨d, hd'⟩ := dec (before := []) (mid := pre ++ dh :: a) (n := n) (ns := b ++ rest) (.inl ⟨hin, hn⟩)
        (by have := ((C91_lookahead _ ds ts).mp hl).1; simpa using this)
      cases hd' with
      | type _ _ h =>
        obtain ⟨sig, sw, hs, _⟩ := h
        exact (C95_some _ (by decide) _).mp ⟨sig, sw, hs⟩ h2
      | attributes _ h _ _ _ => exact absurd hn.1 (by rw [(item_list h).1]; decide)
    · exact absurd hn.1 (by rw [(item_list h1).1]; decide)
where
  dec {before mid : List Node} {n : Node} {ns : List Node} {ds : List Decl} (hD : Declaring (before ++ mid) n)
      (h : Declarations before (mid ++ n :: ns) ds) : ∃ d, Declares (before ++ mid) n d := by
    induction mid generalizing before ds with
    | nil =>
      rw [List.append_nil] at hD ⊢
      cases h with
      | declares h _ => exact ⟨_, h⟩
      | skips h _ => exact absurd hD h
    | cons x mid ih =>
      have e : before ++ x :: mid = (before ++ [x]) ++ mid := by simp
      rw [e] at hD ⊢
      cases h with
      | declares _ h => exact ih hD h
      | skips _ h => exact ih hD h

/-- C91: after the header of an action no header declares a type, up to the next `# Data Structures`. -/
theorem C91_hidden (pre mid : List Node) (a n : Node) (ha : ActionHeading a) (ht : ¬ TypeHeading a) (hm : ∀ m ∈ mid, ¬ DataStart m) (d : Decl)
    (hn : TypeHeader n) : ¬ Declares (pre ++ a :: mid) n d := by
  have key : ¬ InData (pre ++ a :: mid) := by
    have start : ∀ l : List Node, (∀ m ∈ l, ¬ DataStart m) → ¬ InData (pre ++ a :: l.reverse) := by
      intro l
      induction l with
      | nil =>
        intro _
        have e : pre ++ a :: ([] : List Node).reverse = pre ++ [a] := rfl
        rw [e, data_snoc]
        rintro (h | ⟨_, h⟩)
        · exact h.2.2.1 ha
        · rcases h ha.1 with h | h | h
          · exact h.2.2.2.1 ha
          · exact ht h
          · exact h.2.2.1 ha
      | cons x l ih =>
        intro hl
        have e : pre ++ a :: (x :: l).reverse = (pre ++ a :: l.reverse) ++ [x] := by simp
        rw [e, data_snoc]
        rintro (h | ⟨h, _⟩)
        · exact hl x (by simp) h
        · exact ih (fun m hm => hl m (by simp [hm])) h
    have := start mid.reverse (by simpa using hm)
    simpa using this
  intro h
  cases h with
  | type h _ _ => exact key h
  | attributes _ h _ _ _ => exact absurd hn.1 (by rw [(item_list h).1]; decide)

theorem signature_trim (s : Bytes) : Signature.parseSignature Spec.LineKinds.typeLine (trim s) = Signature.parseSignature Spec.LineKinds.typeLine s := by
  have e : (if Spec.LineKinds.typeLine.identifier && !(trim s).isEmpty then Signature.parseIdentifier Spec.LineKinds.typeLine (trim s) else ([], trim s)) =
      (if Spec.LineKinds.typeLine.identifier && !s.isEmpty then Signature.parseIdentifier Spec.LineKinds.typeLine s else ([], s)) := by
    have ht : trim (trim s) = trim s := trim_trim s
    have hp : Signature.parseIdentifier Spec.LineKinds.typeLine (trim s) = Signature.parseIdentifier Spec.LineKinds.typeLine s := by
      unfold Signature.parseIdentifier; rw [ht]
    rw [hp]
    by_cases h1 : trim s = []
    · by_cases h2 : s = []
      · subst h2; rfl
      · have a1 : (Spec.LineKinds.typeLine.identifier && !(trim s).isEmpty) = false := by rw [h1]; rfl
        have a2 : (Spec.LineKinds.typeLine.identifier && !s.isEmpty) = true := by cases s with | nil => exact absurd rfl h2 | cons _ _ => rfl
        rw [a1, a2, ← hp, h1, if_neg (by decide), if_pos rfl]
        unfold Signature.parseIdentifier Signature.identifierLoop
        rfl
    · have h2 : s ≠ [] := by rintro rfl; exact h1 rfl
      have a1 : (Spec.LineKinds.typeLine.identifier && !(trim s).isEmpty) = true := by
        cases h : trim s with | nil => exact absurd h h1 | cons _ _ => rfl
      have a2 : (Spec.LineKinds.typeLine.identifier && !s.isEmpty) = true := by cases s with | nil => exact absurd rfl h2 | cons _ _ => rfl
      rw [a1, a2, if_pos rfl, if_pos rfl]
  unfold Signature.parseSignature
  rw [e]

theorem literal_of {s : Bytes} (h : (Mson.parseValue s).isVariable = false) : stripBackticks s = (Mson.parseValue s).literal := by
  unfold Mson.parseValue at h ⊢
  by_cases hc : Mson.checkVariable s = true
  · exfalso
    simp only [hc, if_true] at h
    have key : ∀ x : Bytes, (if x = str "*" then (⟨[], true⟩ : Mson.Value) else ⟨x, true⟩).isVariable = true := by
      intro x; split <;> rfl
    exact absurd (h.symm.trans (key _)) (by decide)
  · have hc : Mson.checkVariable s = false := by simpa using hc
    simp only [hc, Bool.false_eq_true, if_false, List.isEmpty_nil, if_true] at h ⊢
    by_cases hs : stripBackticks s = str "*"
    · rw [if_pos hs] at h; cases h
    · rw [if_neg hs]

/-- C91: a type is declared under the name that it gets, if its header is one line and its name is not a variable. -/
theorem C91_name (w : MsonParser.World) (known known' : Context) (n : Node) (ns rest : List Node) (t : NamedType) (ws : List MsonParser.Warning) (d : Decl)
    (h : TypeRead w known n ns t known' ws rest) (hd : HeaderDeclares n d) (hl : asc '\n' ∉ n.text) (hv : t.name.isVariable = false) :
    d.identifier = t.name.literal ∧ d.type = t.type.spec.name ∧ d.nested = t.type.spec.nested := by
  obtain ⟨sig, dw, h1, h2, h3⟩ := hd
  cases h with
  | @mk line under sig' sw type ss types' rs ws rest hs ht hr hc =>
    obtain ⟨l, g1, g2, g3, g4⟩ := hs
    have e : l = n.text := by
      rcases g1 with ⟨_, g | ⟨r, g⟩⟩
      · exact g.symm
      · exfalso; apply hl; rw [g]; simp
    subst e
    have g4 := ((Verif.SignatureLine.signature_iff (by decide)).mp g4).1
    have h1 := ((Verif.SignatureLine.signature_iff (by decide)).mp h1).1
    rw [← trim_unique g2, signature_trim, h1] at g4
    cases g4
    have hspec : type.spec = (Mson.parseTypeDefinition known sig.attributes).1.spec := by cases ht <;> rfl
    refine ⟨?_, ?_, ?_⟩
    · rw [h2]
      exact literal_of hv
    · simp only; rw [hspec, h3 known]
    · simp only; rw [hspec, h3 known]

/-- C91: two declarations of the same name in a document are an error. -/
theorem C91_twice (ns : List Node) (ds : List Decl) (ts : List Bytes) (h : Declarations [] ns ds) (g : Mistakes ns ts)
    (hn : ¬ (ds.map (·.identifier)).Nodup) : declarations ns = .ok (ds, ts) ∧ ∃ e, buildTables ds = some (.error e) :=
  ⟨(C91_lookahead ns ds ts).mpr ⟨h, g⟩, C21_duplicate ds hn⟩

/-- C91: the attributes of a named resource never have a variable for a name, so that the test for it (S/BlueprintParser.h:343-346) never
applies. -/
theorem C91_never_variable (n c : Node) (cs : List Node) (sig : Signature.Signature) (sw : List MsonParser.Warning) (h : AttributesItem n) (hc : n.children = c :: cs)
    (hs : SignatureLine.SignatureLine Spec.LineKinds.typeLine c.text sig sw) : Mson.checkVariable sig.identifier = false := by
  obtain ⟨x, q, h1, h2⟩ := item_front h
  have hf : frontText n = c.text := by unfold frontText; rw [hc]; rfl
  rw [hf] at h1
  exact identifier_front h1 h2 ((Verif.SignatureLine.signature_iff (by decide)).mp hs).1

end Verif.Props
