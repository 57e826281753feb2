import Verif.Proof.ParametersOne
import Verif.Proof.ParameterLineName

/-! # A section of parameters -/

namespace Verif.ParametersParser
open Verif Verif.Text Verif.Section Verif.Recognition Verif.Regex Verif.Spec Verif.Spec.Recognition Verif.Spec.MsonParser Verif.Props
open Verif.Spec.ParametersParser
open Verif.MsonParser (World walk moved itemResult trimmed_iff)
open Verif.Parameters (Parameter)
open Verif.Mson (Context)
open Verif.Payload (outcome)

/-! ## Which syntax -/

theorem tellsOld_iff {n : Node} : TellsOld n ↔ (n.kind = .listItem ∧ n.children ≠ []) ∧ regexMatch (frontLine n) valuesRegex = true := by
  rw [m_values]; exact itemLine_iff

theorem typeSectionOf_item {n : Node} (h : n.kind = .listItem ∧ n.children ≠ []) : recognise.typeSectionType n = typeSectionOf n := by
  rw [Recognise.typeSectionType, if_pos (.inr h)]; rfl

theorem tellsNew_iff {n : Node} : TellsNew n ↔ (n.kind = .listItem ∧ n.children ≠ []) ∧
    (typeSectionOf n = .msonSampleDefault ∨ typeSectionOf n = .msonValueMembers) := by
  by_cases hk : n.kind = .listItem ∧ n.children ≠ []
  · rw [← typeSectionOf_item hk]
    constructor
    · rintro (h | h)
      · exact ⟨hk, .inl (sample_type h)⟩
      · exact ⟨hk, .inr (items_type h)⟩
    · rintro ⟨-, h | h⟩
      · exact .inl (sample_of h hk.1)
      · exact .inr (items_of h hk.1)
  · simp only [hk, false_and, iff_false]
    have hl : ∀ {s}, Line n s → n.kind = .listItem ∧ n.children ≠ [] := by
      rintro s ⟨_, _, ⟨h1, c, cs, h2, _⟩, _⟩
      exact ⟨h1, by rw [h2]; simp⟩
    rintro (⟨s, h, _⟩ | ⟨s, h, _⟩) <;> exact hk (hl h)

theorem not_both {n : Node} (h : TellsNew n) : ¬ TellsOld n := by
  intro h'
  rcases h with ⟨s, h1, h2⟩ | ⟨s, h1, h2⟩
  · exact MsonParser.line_only (i := .sampleDefault) (j := .values) ⟨s, h1, h2⟩ (by decide) h'
  · exact MsonParser.line_only (i := .valueMembers) (j := .values) ⟨s, h1, h2⟩ (by decide) h'

/-- The first block that tells. -/
def FirstTelling (ns : List Node) (P : Node → Prop) : Prop :=
  ∃ pre m post, ns = pre ++ m :: post ∧ (∀ a ∈ pre, ¬ TellsNew a ∧ ¬ TellsOld a) ∧ P m

theorem lookAhead_cons (n : Node) (ns : List Node) :
    (TellsNew n ∧ lookAhead (n :: ns) = some .msonParameter) ∨ (TellsOld n ∧ lookAhead (n :: ns) = some .parameter) ∨
      (¬ TellsNew n ∧ ¬ TellsOld n ∧ lookAhead (n :: ns) = lookAhead ns) := by
  rw [lookAhead, tellsNew_iff, tellsOld_iff]
  by_cases hk : n.kind = .listItem ∧ n.children ≠ []
  · rw [if_pos hk]
    by_cases h1 : typeSectionOf n = .msonSampleDefault ∨ typeSectionOf n = .msonValueMembers
    · rw [if_pos h1]; exact .inl ⟨⟨hk, h1⟩, rfl⟩
    · rw [if_neg h1]
      by_cases h2 : regexMatch (frontLine n) valuesRegex = true
      · rw [if_pos h2]; exact .inr (.inl ⟨⟨hk, h2⟩, rfl⟩)
      · rw [if_neg h2]; exact .inr (.inr ⟨fun h => h1 h.2, fun h => h2 h.2, rfl⟩)
  · rw [if_neg hk]; exact .inr (.inr ⟨fun h => hk h.1, fun h => hk h.1, rfl⟩)

theorem lookAhead_spec : ∀ ns : List Node, (lookAhead ns = some .msonParameter ↔ FirstTelling ns TellsNew) ∧
    (lookAhead ns = some .parameter ↔ FirstTelling ns TellsOld) ∧ (lookAhead ns = none ↔ ∀ m ∈ ns, ¬ TellsNew m ∧ ¬ TellsOld m)
  | [] => by
    refine ⟨?_, ?_, ?_⟩
    · simp only [lookAhead, reduceCtorEq, false_iff]; rintro ⟨pre, m, post, h, -⟩; cases pre <;> cases h
    · simp only [lookAhead, reduceCtorEq, false_iff]; rintro ⟨pre, m, post, h, -⟩; cases pre <;> cases h
    · simp [lookAhead]
  | n :: ns => by
    obtain ⟨i1, i2, i3⟩ := lookAhead_spec ns
    have up : ∀ P : Node → Prop, ¬ TellsNew n → ¬ TellsOld n → ¬ P n → (FirstTelling (n :: ns) P ↔ FirstTelling ns P) := by
      intro P h1 h2 h3
      constructor
      · rintro ⟨pre, m, post, he, hp, hm⟩
        cases pre with
        | nil => cases he; exact absurd hm h3
        | cons a pre => cases he; exact ⟨pre, m, post, rfl, fun a ha => hp a (List.mem_cons_of_mem _ ha), hm⟩
      · rintro ⟨pre, m, post, rfl, hp, hm⟩
        refine ⟨n :: pre, m, post, rfl, fun a ha => ?_, hm⟩
        cases List.mem_cons.mp ha with
        | inl h => subst h; exact ⟨h1, h2⟩
        | inr h => exact hp a h
    have at0 : ∀ P : Node → Prop, TellsNew n ∨ TellsOld n → (FirstTelling (n :: ns) P ↔ P n) := by
      intro P h
      constructor
      · rintro ⟨pre, m, post, he, hp, hm⟩
        cases pre with
        | nil => cases he; exact hm
        | cons a pre =>
          cases he
          have := hp n List.mem_cons_self
          rcases h with h | h
          · exact absurd h this.1
          · exact absurd h this.2
      · intro hm; exact ⟨[], n, ns, rfl, by simp, hm⟩
    rcases lookAhead_cons n ns with ⟨h1, h2⟩ | ⟨h1, h2⟩ | ⟨h1, h2, h3⟩
    · rw [h2, at0 _ (.inl h1), at0 _ (.inl h1)]
      refine ⟨by simp [h1], by simp [not_both h1], ?_⟩
      simp only [reduceCtorEq, false_iff]
      intro h; exact (h n List.mem_cons_self).1 h1
    · rw [h2, at0 _ (.inr h1), at0 _ (.inr h1)]
      have hn : ¬ TellsNew n := fun h => not_both h h1
      refine ⟨by simp [hn], by simp [h1], ?_⟩
      simp only [reduceCtorEq, false_iff]
      intro h; exact (h n List.mem_cons_self).2 h1
    · rw [h3, up _ h1 h2 h1, up _ h1 h2 h2]
      refine ⟨i1, i2, ?_⟩
      rw [i3]
      simp [h1, h2]

theorem silent_iff {n : Node} {line : Bytes} : Silent n line ↔
    (n.kind = .listItem ∧ n.children ≠ []) ∧ lookAhead n.children = none ∧ line = frontLine n := by
  unfold Silent
  rw [(lookAhead_spec n.children).2.2]
  constructor
  · rintro ⟨h, text, l, h1, h2, h3⟩
    obtain ⟨hk, rfl⟩ := itemText_iff.mp h1
    rw [firstLine_iff] at h2; subst h2
    rw [trimmed_iff] at h3; subst h3
    exact ⟨hk, h, rfl⟩
  · rintro ⟨hk, h, rfl⟩
    exact ⟨h, _, _, itemText_iff.mpr ⟨hk, rfl⟩, firstLine_iff.mpr rfl, trimmed_iff.mpr rfl⟩

theorem lookAhead_values (ns : List Node) : lookAhead ns = none ∨ lookAhead ns = some .msonParameter ∨ lookAhead ns = some .parameter := by
  induction ns with
  | nil => exact .inl rfl
  | cons n ns ih =>
    rcases lookAhead_cons n ns with ⟨-, h⟩ | ⟨-, h⟩ | ⟨-, -, h⟩
    · exact .inr (.inl h)
    · exact .inr (.inr h)
    · rw [h]; exact ih

theorem telling_ne {ns : List Node} {P : Node → Prop} (h : FirstTelling ns P) : ns ≠ [] := by
  obtain ⟨pre, m, post, rfl, -⟩ := h
  simp

theorem isOld_iff {n : Node} : IsOld n ↔ parameterType n = .parameter := by
  unfold IsOld parameterType
  have s := lookAhead_spec n.children
  constructor
  · rintro (⟨hk, h⟩ | ⟨line, h, ht⟩)
    · rw [if_pos ⟨hk, telling_ne h⟩, s.2.1.mpr h]
    · obtain ⟨hk, hn, rfl⟩ := silent_iff.mp h
      rw [if_pos hk, hn]
      simp only [(lineTells_iff (by simp)).mpr ht]
  · intro h
    split at h
    case isFalse => cases h
    rename_i hk
    rcases lookAhead_values n.children with hl | hl | hl
    · rw [hl] at h
      simp only at h
      split at h
      · exact .inr ⟨_, silent_iff.mpr ⟨hk, hl, rfl⟩, (lineTells_iff (by simp)).mp ‹_›⟩
      · cases h
      · cases h
    · rw [hl] at h; cases h
    · exact .inl ⟨hk.1, s.2.1.mp hl⟩

theorem isNew_iff {n : Node} : IsNew n ↔ parameterType n = .msonParameter := by
  unfold IsNew parameterType
  have s := lookAhead_spec n.children
  constructor
  · rintro (⟨hk, h⟩ | ⟨line, h, ht⟩)
    · rw [if_pos ⟨hk, telling_ne h⟩, s.1.mpr h]
    · obtain ⟨hk, hn, rfl⟩ := silent_iff.mp h
      rw [if_pos hk, hn]
      simp only [(lineTells_iff (by simp)).mpr ht]
  · intro h
    split at h
    case isFalse => cases h
    rename_i hk
    rcases lookAhead_values n.children with hl | hl | hl
    · rw [hl] at h
      simp only at h
      split at h
      · cases h
      · exact .inr ⟨_, silent_iff.mpr ⟨hk, hl, rfl⟩, (lineTells_iff (by simp)).mp ‹_›⟩
      · cases h
    · exact .inl ⟨hk.1, s.1.mp hl⟩
    · rw [hl] at h; cases h

theorem parameterType_values (n : Node) : parameterType n = .undefined ∨ parameterType n = .parameter ∨ parameterType n = .msonParameter := by
  unfold parameterType
  split
  · rcases lookAhead_values n.children with hl | hl | hl <;> rw [hl]
    · simp only; split <;> simp
    · simp
    · simp
  · simp

/-! ## One more parameter -/

theorem find_none {ps : List Parameter} {p : Parameter} : Parameters.findParameter ps p = none ↔ ∀ q ∈ ps, q.name ≠ p.name := by
  unfold Parameters.findParameter
  simp

theorem find_some : ∀ {ps : List Parameter} {p : Parameter} {j : Nat}, Parameters.findParameter ps p = some j →
    ∃ pre q post, ps = pre ++ q :: post ∧ (∀ a ∈ pre, a.name ≠ p.name) ∧ q.name = p.name ∧ ps.eraseIdx j = pre ++ post
  | [], p, j, h => by simp [Parameters.findParameter] at h
  | a :: ps, p, j, h => by
    unfold Parameters.findParameter at h
    rw [List.findIdx?_cons] at h
    split at h
    · rename_i ha
      cases h
      exact ⟨[], a, ps, rfl, by simp, by simpa using ha, rfl⟩
    · rename_i ha
      simp only [Option.map_eq_some_iff] at h
      obtain ⟨k, hk, rfl⟩ := h
      obtain ⟨pre, q, post, rfl, h1, h2, h3⟩ := find_some (p := p) hk
      refine ⟨a :: pre, q, post, rfl, ?_, h2, by simp [h3]⟩
      intro b hb
      cases List.mem_cons.mp hb with
      | inl h => subst h; simpa using ha
      | inr h => exact h1 b h

/-- The parameters with one more. -/
def joined (ps : List Parameter) (p : Parameter) : List Parameter × List Warning :=
  match Parameters.findParameter ps p with
  | none => (ps ++ [p], [])
  | some j => (ps.eraseIdx j ++ [p], [.again p.name])

theorem addParameter_eq (p : Parameter) (ps : List Parameter) (types : Context) (ws : List Warning) :
    addParameter p ⟨ps, types, ws⟩ = ⟨(joined ps p).1, types, ws ++ (joined ps p).2⟩ := by
  unfold addParameter joined
  simp only
  cases Parameters.findParameter ps p <;> simp

theorem joins_iff {ps : List Parameter} {p : Parameter} {qs : List Parameter} {ws : List Warning} :
    Joins ps p qs ws ↔ (qs, ws) = joined ps p := by
  unfold joined
  cases hf : Parameters.findParameter ps p with
  | none =>
    rw [find_none] at hf
    constructor
    · intro h
      cases h with
      | fresh _ => rfl
      | again h1 h2 h3 => subst h1; exact absurd h3 (hf _ (by simp))
    · intro h; cases h; exact .fresh hf
  | some j =>
    obtain ⟨pre, q, post, rfl, h1, h2, h3⟩ := find_some hf
    simp only [h3]
    constructor
    · intro h
      cases h with
      | fresh h => exact absurd h2 (h q (by simp))
      | again e1 e2 e3 =>
        rename_i pre' q' post'
        have aux : ∀ (a b : List Parameter) (x y : Parameter) (c d : List Parameter), (∀ z ∈ a, z.name ≠ p.name) → (∀ z ∈ b, z.name ≠ p.name) →
            x.name = p.name → y.name = p.name → a ++ x :: c = b ++ y :: d → a = b ∧ c = d := by
          intro a
          induction a with
          | nil =>
            intro b x y c d _ hb hx hy he
            cases b with
            | nil => cases he; exact ⟨rfl, rfl⟩
            | cons z b => cases he; exact absurd hx (hb _ List.mem_cons_self)
          | cons z a ih =>
            intro b x y c d ha hb hx hy he
            cases b with
            | nil => cases he; exact absurd hy (ha _ List.mem_cons_self)
            | cons z' b =>
              simp only [List.cons_append, List.cons.injEq] at he
              obtain ⟨rfl, he⟩ := he
              obtain ⟨rfl, rfl⟩ := ih b x y c d (fun z hz => ha z (List.mem_cons_of_mem _ hz)) (fun z hz => hb z (List.mem_cons_of_mem _ hz)) hx hy he
              exact ⟨rfl, rfl⟩
        obtain ⟨rfl, rfl⟩ := aux _ _ _ _ _ _ h1 e2 h2 e3 e1
        rfl
    · intro h; cases h; exact .again rfl h1 h2

theorem joined_joins (ps : List Parameter) (p : Parameter) : Joins ps p (joined ps p).1 (joined ps p).2 := joins_iff.mpr rfl

/-! ## The blocks -/

/-- A parameter that was read. -/
def added (r : Except Stop (Out Parameter)) (ps : List Parameter) : Except Stop (Bool × Out (List Parameter)) :=
  match r with
  | .error e => .error e
  | .ok x => .ok (true, addParameter x.node ⟨ps, x.types, x.warnings⟩)

/-- One block. -/
def parametersStep (w : World) (n : Node) (o : Out (List Parameter)) : Except Stop (Bool × Out (List Parameter)) :=
  if parameterType n = .undefined then .ok (true, o.warn [ignoredAs n])
  else if parameterType n = .parameter then added (oldItem w n ⟨{ name := [] }, o.types, o.warnings⟩) o.node
  else added (newItem w n ⟨{ name := [] }, o.types, o.warnings⟩) o.node

theorem parametersNested_step {ns : List Node} {i : Nat} {n : Node} {ctx : List SectionType} {last : SectionType} {w : World}
    (d : Out (List Parameter)) (hi : ns[i]? = some n) :
    nestedStep (parametersOwn w) true noChild ns n i last ⟨(parametersOwn w).nestedType n :: ctx, d⟩ =
      moved i ((parametersOwn w).nestedType n :: ctx) (parametersStep w n d) := by
  by_cases hu : parameterType n = .undefined
  · rw [step_unexpected (fun _ _ _ => rfl) hi hu, parametersStep, if_pos hu]
  refine MsonParser.nestedStep_done hu ?_
  rw [parametersStep, if_neg hu]
  have ht : (parametersOwn w).nestedType n = parameterType n := rfl
  rw [ht]
  show parametersNested w ns i ⟨parameterType n :: ctx, d⟩ = _
  unfold parametersNested
  simp only [PD.top]
  rcases parameterType_values n with h | h | h
  · exact absurd h hu
  · rw [h]
    simp only [if_true]
    rw [parseOld_item _ hi]
    cases oldItem w n ⟨{ name := [] }, d.types, d.warnings⟩ <;> rfl
  · rw [h]
    simp only [reduceCtorEq, if_false]
    rw [parseNew_item _ hi]
    cases newItem w n ⟨{ name := [] }, d.types, d.warnings⟩ <;> rfl

theorem parameterBlocks_iff {w : World} : ∀ {ns : List Node} {ps : List Parameter} {types : Context} {ws : List Warning} {r : List Node}
    {o : Out (List Parameter)}, walk (parametersStep w) ns ⟨ps, types, ws⟩ = .ok (r, o) ↔
      r = [] ∧ ∃ qs types' us, ParameterBlocks w ps types ns qs types' us ∧ o = ⟨qs, types', ws ++ us⟩
  | [], ps, types, ws, r, o => by
    simp only [walk, Except.ok.injEq, Prod.mk.injEq]
    constructor
    · rintro ⟨rfl, rfl⟩; exact ⟨rfl, ps, types, [], .nil, by simp⟩
    · rintro ⟨rfl, qs, types', us, h, rfl⟩; cases h; exact ⟨rfl, by simp⟩
  | n :: ns, ps, types, ws, r, o => by
    have e : ∀ x : Out (List Parameter), parametersStep w n ⟨ps, types, ws⟩ = .ok (true, x) →
        walk (parametersStep w) (n :: ns) ⟨ps, types, ws⟩ = walk (parametersStep w) ns x := by
      intro x hx
      rw [walk, hx]
    have ee : ∀ er, parametersStep w n ⟨ps, types, ws⟩ = .error er → walk (parametersStep w) (n :: ns) ⟨ps, types, ws⟩ = .error er := by
      intro er hx
      rw [walk, hx]
    rcases parameterType_values n with h | h | h
    · have h1 : ¬ IsOld n := fun h' => by rw [isOld_iff.mp h'] at h; cases h
      have h2 : ¬ IsNew n := fun h' => by rw [isNew_iff.mp h'] at h; cases h
      rw [e ⟨ps, types, ws ++ [ignoredAs n]⟩ (by rw [parametersStep, if_pos h]; rfl), parameterBlocks_iff]
      refine and_congr_right fun _ => ?_
      constructor
      · rintro ⟨qs, types', us, hb, rfl⟩
        exact ⟨qs, types', _, .ignored h1 h2 (ignored_iff.mpr rfl) hb, by simp⟩
      · rintro ⟨qs, types', us, hb, rfl⟩
        cases hb with
        | old h' _ _ _ => exact absurd h' h1
        | new h' _ _ _ => exact absurd h' h2
        | ignored _ _ h3 h4 =>
          rw [ignored_iff] at h3; subst h3
          exact ⟨qs, types', _, h4, by simp⟩
    · have h1 : IsOld n := isOld_iff.mpr h
      have h2 : ¬ IsNew n := fun h' => by rw [isNew_iff.mp h'] at h; cases h
      have hs : parametersStep w n ⟨ps, types, ws⟩ = added (oldItem w n ⟨{ name := [] }, types, ws⟩) ps := by
        rw [parametersStep, if_neg (by rw [h]; simp), if_pos h]
      cases hr : oldItem w n ⟨{ name := [] }, types, ws⟩ with
      | error er =>
        rw [hr, added] at hs
        rw [ee _ hs]
        simp only [reduceCtorEq, false_iff, not_and, not_exists]
        intro _ qs types' us hb
        cases hb with
        | old _ h3 _ _ => rw [oldItem_iff.mpr ⟨_, _, h3, rfl⟩] at hr; cases hr
        | new h' _ _ _ => exact absurd h' h2
        | ignored h' _ _ _ => exact absurd h1 h'
      | ok x =>
        obtain ⟨p, us₀, hp, rfl⟩ := oldItem_iff.mp hr
        rw [hr, added] at hs
        simp only [addParameter_eq] at hs
        rw [e _ hs, parameterBlocks_iff]
        refine and_congr_right fun _ => ?_
        constructor
        · rintro ⟨qs, types', us, hb, rfl⟩
          exact ⟨qs, types', _, .old h1 hp (joined_joins ps p) hb, by simp⟩
        · rintro ⟨qs, types', us, hb, rfl⟩
          cases hb with
          | new h' _ _ _ => exact absurd h' h2
          | ignored h' _ _ _ => exact absurd h1 h'
          | old _ h3 h4 h5 =>
            have := hr.symm.trans (oldItem_iff.mpr ⟨_, _, h3, rfl⟩)
            simp only [Except.ok.injEq, Out.mk.injEq, List.append_cancel_left_eq, true_and] at this
            obtain ⟨rfl, rfl⟩ := this
            have hj := joins_iff.mp h4
            rw [← hj]
            exact ⟨qs, types', _, h5, by simp⟩
    · have h1 : ¬ IsOld n := fun h' => by rw [isOld_iff.mp h'] at h; cases h
      have h2 : IsNew n := isNew_iff.mpr h
      have hs : parametersStep w n ⟨ps, types, ws⟩ = added (newItem w n ⟨{ name := [] }, types, ws⟩) ps := by
        rw [parametersStep, if_neg (by rw [h]; simp), if_neg (by rw [h]; simp)]
      cases hr : newItem w n ⟨{ name := [] }, types, ws⟩ with
      | error er =>
        rw [hr, added] at hs
        rw [ee _ hs]
        simp only [reduceCtorEq, false_iff, not_and, not_exists]
        intro _ qs types' us hb
        cases hb with
        | new _ h3 _ _ => rw [newItem_iff.mpr ⟨_, _, _, h3, rfl⟩] at hr; cases hr
        | old h' _ _ _ => exact absurd h' h1
        | ignored _ h' _ _ => exact absurd h2 h'
      | ok x =>
        obtain ⟨p, types₁, us₀, hp, rfl⟩ := newItem_iff.mp hr
        rw [hr, added] at hs
        simp only [addParameter_eq] at hs
        rw [e _ hs, parameterBlocks_iff]
        refine and_congr_right fun _ => ?_
        constructor
        · rintro ⟨qs, types', us, hb, rfl⟩
          exact ⟨qs, types', _, .new h2 hp (joined_joins ps p) hb, by simp⟩
        · rintro ⟨qs, types', us, hb, rfl⟩
          cases hb with
          | old h' _ _ _ => exact absurd h' h1
          | ignored _ h' _ _ => exact absurd h2 h'
          | new _ h3 h4 h5 =>
            have := hr.symm.trans (newItem_iff.mpr ⟨_, _, _, h3, rfl⟩)
            simp only [Except.ok.injEq, Out.mk.injEq, List.append_cancel_left_eq] at this
            obtain ⟨rfl, rfl, rfl⟩ := this
            have hj := joins_iff.mp h4
            rw [← hj]
            exact ⟨qs, types', _, h5, by simp⟩

/-! ## The section -/

/-- The first line of the section. -/
def parametersSign (n : Node) (o : Out (List Parameter)) : Except Stop (Out (List Parameter)) :=
  .ok (o.warn (if (getFirstLine n.text).2.isEmpty then [] else [.extraContent]))

/-- What is reported in the end. -/
def parametersFinal (o : Out (List Parameter)) : Out (List Parameter) := o.warn (if o.node.isEmpty then [.noParameters] else [])

/-- The list item as a whole. -/
def parametersItem (w : World) (n : Node) (d : Out (List Parameter)) : Except Stop (Out (List Parameter)) :=
  itemResult (pass parametersSign) never (fun _ o => .ok (true, o)) (parametersStep w) parametersFinal n d

theorem parseParameters_item {w : World} {siblings : List Node} {i : Nat} {n : Node} {ctx : List SectionType} (d : Out (List Parameter))
    (hi : siblings[i]? = some n) : parseParameters w siblings i ⟨ctx, d⟩ = outcome i ctx (parametersItem w n d) := by
  refine MsonParser.parse_list d hi ?_ ?_ ?_ ?_ ?_ ?_ ?_ ?_
  · intro ns j d hn; exact oneSignature_none (f := parametersSign) hn
  · intro ns j m d hm
    refine (oneSignature_some (f := parametersSign) hm).trans ?_
    cases pass parametersSign m d <;> rfl
  · intro n d; rfl
  · intro ns j m d _ hd; cases hd
  · intro n t; rfl
  · intro ns j d; rfl
  · intro ns j m last d hm; exact parametersNested_step d hm
  · intro ns j d; rfl

theorem extra_iff {text : Bytes} {ws : List Warning} : Extra text ws ↔ ws = if (getFirstLine text).2.isEmpty then [] else [.extraContent] := by
  constructor
  · intro h
    cases h with
    | yes h1 h2 => rw [Payload.remainder_iff] at h1; subst h1; rw [if_neg (by simpa using h2)]
    | no h => rw [Payload.remainder_iff] at h; rw [← h]; rfl
  · rintro rfl
    split
    · rename_i h
      exact .no (Payload.remainder_iff.mpr (List.isEmpty_iff.mp h).symm)
    · rename_i h
      exact .yes (Payload.remainder_iff.mpr rfl) (by simpa using h)

theorem nothing_iff {ps : List Parameter} {ws : List Warning} : Nothing ps ws ↔ ws = if ps.isEmpty then [.noParameters] else [] := by
  constructor
  · intro h
    cases h with
    | yes => rfl
    | no h => rw [if_neg (by simpa using h)]
  · rintro rfl
    cases ps with
    | nil => exact .yes
    | cons => exact .no (by simp)

theorem parametersItem_iff {w : World} {n : Node} {types : Context} {ws : List Warning} {o : Out (List Parameter)} :
    parametersItem w n ⟨[], types, ws⟩ = .ok o ↔ ∃ ps types' us, SectionRead w n types ps types' us ∧ o = ⟨ps, types', ws ++ us⟩ := by
  unfold parametersItem
  rw [item_iff pass_true (fun _ _ _ _ h => by cases h; rfl)]
  constructor
  · rintro ⟨sig, blocks, d₁, d₂, r, d₃, hp, h1, h2, h3, rfl⟩
    rw [takeWhile_never.1, walk] at h2
    rw [takeWhile_never.2] at h3
    cases h2
    rw [pass_iff, parametersSign] at h1
    cases h1
    obtain ⟨-, qs, types', us, hb, rfl⟩ := parameterBlocks_iff.mp h3
    exact ⟨qs, types', _, ⟨sig, blocks, _, us, _, hp, extra_iff.mpr rfl, hb, nothing_iff.mpr rfl, rfl⟩, by
      simp [parametersFinal, Out.warn]⟩
  · rintro ⟨ps, types', us, ⟨sig, blocks, ew, bw, nw, hp, he, hb, hn, rfl⟩, rfl⟩
    rw [extra_iff] at he; subst he
    rw [nothing_iff] at hn; subst hn
    refine ⟨sig, blocks, ⟨[], types, ws ++ if (getFirstLine sig.text).2.isEmpty then [] else [.extraContent]⟩,
      ⟨[], types, ws ++ if (getFirstLine sig.text).2.isEmpty then [] else [.extraContent]⟩, [],
      ⟨ps, types', ws ++ (if (getFirstLine sig.text).2.isEmpty then [] else [.extraContent]) ++ bw⟩, hp, pass_iff.mpr rfl, ?_, ?_, ?_⟩
    · rw [takeWhile_never.1]; rfl
    · rw [takeWhile_never.2]; exact parameterBlocks_iff.mpr ⟨rfl, ps, types', bw, hb, rfl⟩
    · simp [parametersFinal, Out.warn]

end Verif.ParametersParser
