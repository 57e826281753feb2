import Verif.Proof.DataGroup
import Verif.Props.C89

/-!
# C90: a group of data structures, exactly

`C90_data` characterises the parser of `# Data Structures` by `Types` of `Spec/DataGroup.lean`; `C90_one`: the specification leaves no choice;
`C90_closes`: where the group ends; `C90_new`: no type of the group has the name of one that the blueprint had before; `C90_within`: types of one
group with the same name are not reported.
-/

namespace Verif.Props
open Verif Verif.Text Verif.Section Verif.Recognition Verif.Spec Verif.DataGroup Verif.Spec.DataGroup
open Verif.Spec.MsonParser (TypeRead)
open Verif.MsonParser (named_iff namedMeaning)
open Verif.Mson (Context)
open Verif.DataStructure (NamedType)
open Verif.MsonParser (at_ many_suffix)

theorem data_suffix {s : Surroundings} {blocks rest : List Node} {known : Context} {d : Data}
    (h : dataResult s blocks { known := known } = .ok (rest, d)) : rest <:+ blocks := many_suffix (step_suffixes s) h

/-- C90: what a group gives, what is reported, and which blocks are left is what `Types` says: wherever it stands. -/
theorem C90_data (s : Surroundings) (ctx : List SectionType) (siblings : List Node) (i : Nat) (n : Node) (known : Context)
    (hi : siblings[i]? = some n) (hk : n.kind = .header) (j : Nat) (pd : PD Data) :
    parseData s ctx siblings i known = .ok (j, pd) ↔
      ∃ rest ts known' ws, Types s [] known (siblings.drop (i + 1)) rest ts known' ws ∧ j + rest.length = siblings.length ∧
        pd = ⟨ctx, { types := ts, known := known', warnings := ws }⟩ := by
  have hlt : i < siblings.length := (List.getElem?_eq_some_iff.mp hi).1
  rw [data_parse s ctx known hi hk]
  constructor
  · intro h
    cases hq : dataResult s (siblings.drop (i + 1)) { known := known } with
    | error e => rw [hq] at h; cases h
    | ok q =>
      obtain ⟨rest, d⟩ := q
      have hs := (data_suffix hq).length_le
      rw [List.length_drop] at hs
      rw [hq] at h
      obtain ⟨ts, known', ws, h1, rfl⟩ := data_iff.mp hq
      simp only [at_, Except.ok.injEq, Prod.mk.injEq] at h
      obtain ⟨rfl, rfl⟩ := h
      exact ⟨rest, ts, known', ws, h1, by omega, rfl⟩
  · rintro ⟨rest, ts, known', ws, h1, hj, rfl⟩
    have hq := data_iff.mpr ⟨ts, known', ws, h1, rfl⟩
    have hs := (data_suffix hq).length_le
    rw [List.length_drop] at hs
    rw [hq]
    simp only [at_, Except.ok.injEq, Prod.mk.injEq]
    exact ⟨by omega, rfl⟩

/-- C90: so there is one list of types, one list of warnings and one end at most that `Types` allows; the blocks that are left are the last ones. -/
theorem C90_one (s : Surroundings) (known known₁ known₂ : Context) (blocks rest rest' : List Node) (ts us : List NamedType) (vs ws : List Warning)
    (h : Types s [] known blocks rest ts known₁ vs) (h' : Types s [] known blocks rest' us known₂ ws) :
    ts = us ∧ known₁ = known₂ ∧ vs = ws ∧ rest = rest' ∧ ∃ pre, blocks = pre ++ rest := by
  have e1 := data_iff.mpr ⟨_, _, _, h, rfl⟩
  have e2 := data_iff.mpr ⟨_, _, _, h', rfl⟩
  obtain ⟨pre, hp⟩ := data_suffix e1
  rw [e1] at e2
  simp only [Except.ok.injEq, Prod.mk.injEq, data, Data.mk.injEq] at e2
  exact ⟨e2.2.1, e2.2.2.1, e2.2.2.2, e2.1, pre, hp.symm⟩

/-- C90: reading ends: the parser gives a group or says why not. -/
theorem C90_decides (s : Surroundings) (ctx : List SectionType) (siblings : List Node) (i : Nat) (n : Node) (known : Context)
    (hi : siblings[i]? = some n) (hk : n.kind = .header) : parseData s ctx siblings i known ≠ .error .diverges := by
  rw [data_parse s ctx known hi hk]
  have hst : ∀ m ms x, MsonParser.Ends (step s m ms x) := by
    intro m ms x
    by_cases ht : TypeHeader m
    · rw [step_type ht]
      have := named_ends s.world m ms x.known
      split
      · intro h; cases h; exact this ‹_›
      · simp [MsonParser.Ends]
    · by_cases hc : Closes m
      · rw [step_closes hc]; simp [MsonParser.Ends]
      · rw [step_ignored ht hc]; simp [MsonParser.Ends]
  have h := many_ends hst (step_suffixes s) _ (siblings.drop (i + 1)) { known := known } (Nat.le_refl _)
  intro hx
  cases hq : dataResult s (siblings.drop (i + 1)) { known := known } with
  | error e =>
    rw [hq] at hx
    simp only [at_, Except.error.injEq] at hx
    exact h (by rw [← hx, ← hq]; rfl)
  | ok q => rw [hq] at hx; cases hx

/-- C90: a group is read unless one of its types is not: then the whole document is given up, for the same reason. -/
theorem C90_given_up (s : Surroundings) (ctx : List SectionType) (siblings : List Node) (i : Nat) (n : Node) (known : Context)
    (hi : siblings[i]? = some n) (hk : n.kind = .header) (e : Stop) (h : parseData s ctx siblings i known = .error e) :
    ∃ j m types, i < j ∧ siblings[j]? = some m ∧ TypeHeader m ∧ MsonParser.parseNamed s.world siblings j ⟨[], {}, types, []⟩ = .error e := by
  rw [data_parse s ctx known hi hk] at h
  have key : ∀ fuel (ms : List Node) d, ms.length ≤ fuel → ms <:+ siblings.drop (i + 1) → MsonParser.many (step s) fuel ms d = .error e →
      ∃ pre m post types, siblings.drop (i + 1) = pre ++ m :: post ∧ TypeHeader m ∧ namedMeaning s.world m post types = .error e := by
    intro fuel
    induction fuel with
    | zero =>
      intro ms d hl _ hx
      cases ms with
      | nil => rw [MsonParser.many] at hx; cases hx
      | cons => simp at hl
    | succ fuel ih =>
      intro ms d hl hs hx
      cases ms with
      | nil => rw [MsonParser.many] at hx; cases hx
      | cons m ms =>
        rw [List.length_cons] at hl
        rw [MsonParser.many] at hx
        split at hx
        · rename_i e' hst
          cases hx
          by_cases ht : TypeHeader m
          · rw [step_type ht] at hst
            split at hst
            · rename_i hm
              cases hst
              obtain ⟨pre, hp⟩ := hs
              exact ⟨pre, m, ms, d.known, hp.symm, ht, hm⟩
            · cases hst
          · by_cases hc : Closes m
            · rw [step_closes hc] at hst; cases hst
            · rw [step_ignored ht hc] at hst; cases hst
        · cases hx
        · rename_i hst
          have h1 := step_suffixes s _ _ _ _ _ hst
          exact ih _ _ (by have := h1.length_le; omega) (h1.trans ((List.suffix_cons _ _).trans hs)) hx
  cases hq : dataResult s (siblings.drop (i + 1)) { known := known } with
  | ok q => rw [hq] at h; cases h
  | error e' =>
    rw [hq] at h
    simp only [at_, Except.error.injEq] at h
    subst h
    obtain ⟨pre, m, post, types, hp, ht, hm⟩ := key _ _ _ (Nat.le_refl _) List.suffix_rfl hq
    have hj : siblings[i + 1 + pre.length]? = some m := by
      rw [← List.getElem?_drop, hp]; simp
    refine ⟨_, m, types, by omega, hj, ht, ?_⟩
    rw [MsonParser.named_at s.world siblings _ [] [] hj ht.1]
    have : siblings.drop (i + 1 + pre.length + 1) = post := by
      rw [Nat.add_assoc (i + 1), ← List.drop_drop, hp]; simp
    rw [this, hm]
    rfl

/-- C90: nothing is left, or the header of a resource, a group or other data structures is next. -/
theorem C90_closes (s : Surroundings) (known known' : Context) (ts ts' : List NamedType) (blocks rest : List Node) (ws : List Warning)
    (h : Types s ts known blocks rest ts' known' ws) : ∀ n ∈ rest.head?, Closes n := by
  induction h with
  | done => intro n hn; cases hn
  | closed hc => intro n hn; cases hn; exact hc
  | type _ _ _ _ ih => exact ih
  | twice _ _ _ _ ih => exact ih
  | ignored _ _ _ _ ih => exact ih

/-- C90: the types come after those before, and none of them has the name of one that the blueprint had before the group. -/
theorem C90_new (s : Surroundings) (known known' : Context) (ts ts' : List NamedType) (blocks rest : List Node) (ws : List Warning)
    (h : Types s ts known blocks rest ts' known' ws) : ∃ us, ts' = ts ++ us ∧ ∀ t ∈ us, s.names t.name.literal = false := by
  induction h with
  | done => exact ⟨[], by simp⟩
  | closed hc => exact ⟨[], by simp⟩
  | type _ _ hn _ ih =>
    obtain ⟨us, rfl, h⟩ := ih
    exact ⟨_ :: us, by simp; rfl, by
      intro t ht
      cases ht with
      | head => exact hn
      | tail _ ht => exact h t ht⟩
  | twice _ _ _ _ ih => exact ih
  | ignored _ _ _ _ ih => exact ih

/-- C90: a duplicate is reported only for a name that the blueprint had before the group: types of one group may share a name without a word. -/
theorem C90_within (s : Surroundings) (known known' : Context) (ts ts' : List NamedType) (blocks rest : List Node) (ws : List Warning)
    (h : Types s ts known blocks rest ts' known' ws) : ∀ name, .duplicateType name ∈ ws → s.names name = true := by
  induction h with
  | done => intro name hn; cases hn
  | closed hc => intro name hn; cases hn
  | type _ _ _ _ ih =>
    intro name hn
    rw [List.mem_append, List.mem_map] at hn
    rcases hn with ⟨_, _, hx⟩ | hn
    · cases hx
    · exact ih name hn
  | twice _ _ hs _ ih =>
    intro name hn
    rw [List.mem_append, List.mem_map, List.mem_cons] at hn
    rcases hn with ⟨_, _, hx⟩ | hx | hn
    · cases hx
    · cases hx; exact hs
    · exact ih name hn
  | ignored _ _ _ _ ih =>
    intro name hn
    rw [List.mem_append, List.mem_map] at hn
    rcases hn with ⟨_, _, hx⟩ | hn
    · cases hx
    · exact ih name hn

/-! ## Examples -/

/-- A blueprint that has a type `A` already. -/
def hasA : Surroundings := ⟨msonWorld, fun n => n == str "A"⟩

theorem types_of {s : Surroundings} {ns : List Node} {p : List Node × Data → Bool} (h : (dataResult s ns { known := noTypes }).toOption.any p = true) :
    ∃ ts known' ws rest, Types s [] noTypes ns rest ts known' ws ∧ p (rest, data ts known' ws) = true := by
  obtain ⟨⟨rest, d⟩, h1, h2⟩ := any_ok h
  obtain ⟨ts, known', ws, h3, rfl⟩ := data_iff.mp h1
  exact ⟨ts, known', ws, rest, h3, h2⟩

/-- `A` is dropped and reported, the two `B` are kept and not reported, text between is ignored, and the group ends at the next group. -/
example : ∃ ts known' ws rest, Types hasA [] noTypes
    [mhead "A", mitem [mpara "b"], mhead "B", mitem [mpara "c"], mhead "B", mhead "Group X", mhead "C"] rest ts known' ws ∧
    (ts.map (fun t => t.name.literal) == [str "B", str "B"] && ws == [.duplicateType (str "A")] && rest.length == 2) = true :=
  types_of (p := fun x => x.2.types.map (fun t => t.name.literal) == [str "B", str "B"] && x.2.warnings == [.duplicateType (str "A")] && x.1.length == 2)
    (by decide +kernel)

/-- Text before the first type, and the header of an action: ignored and reported. -/
example : ∃ ts known' ws rest, Types hasA [] noTypes [mpara "text", mhead "GET", mhead "B"] rest ts known' ws ∧
    (ts.length == 1 && ws == [.ignored .unrecognised, .ignored .unexpectedHeader] && rest.length == 0) = true :=
  types_of (p := fun x => x.2.types.length == 1 && x.2.warnings == [.ignored .unrecognised, .ignored .unexpectedHeader] && x.1.length == 0)
    (by decide +kernel)

/-- A document that is given up: `+ Properties` right under the header of a type. -/
example : parseData hasA [] [mhead "Data Structures", mhead "B", mitem [mpara "Properties", mitem [mpara "c"]]] 0 noTypes = .error .thrown := by
  rw [data_parse hasA [] noTypes rfl rfl]
  have : dataResult hasA [mhead "B", mitem [mpara "Properties", mitem [mpara "c"]]] { known := noTypes } = .error .thrown := by
    cases hq : dataResult hasA [mhead "B", mitem [mpara "Properties", mitem [mpara "c"]]] { known := noTypes } with
    | error e =>
      have : (match dataResult hasA [mhead "B", mitem [mpara "Properties", mitem [mpara "c"]]] { known := noTypes } with
        | .error e => e | .ok _ => .diverges) = Stop.thrown := by decide +kernel
      rw [hq] at this
      exact congrArg _ this
    | ok q =>
      have : (match dataResult hasA [mhead "B", mitem [mpara "Properties", mitem [mpara "c"]]] { known := noTypes } with
        | .error e => e | .ok _ => .diverges) = Stop.thrown := by decide +kernel
      rw [hq] at this
      cases this
  show at_ _ _ (dataResult hasA [mhead "B", mitem [mpara "Properties", mitem [mpara "c"]]] { known := noTypes }) = _
  rw [this]
  rfl

end Verif.Props
