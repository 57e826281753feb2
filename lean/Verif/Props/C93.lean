import Verif.Proof.ParametersSection

/-!
# C93: a section of parameters

What is made of a `+ Parameters` section is said by `Spec/ParametersParser.lean`: which blocks are parameters, of which syntax, what their
name, description, type, default and sample value and values are, which parameter takes the place of which, and every report.
-/

namespace Verif.Props
open Verif Verif.Text Verif.Section Verif.ParametersParser Verif.Spec.ParametersParser
open Verif.MsonParser (World Ends walk_ends)
open Verif.Parameters (Parameter)
open Verif.Mson (Context)

/-- A section is read as what it is, wherever it stands; reports are added behind those that are there. -/
theorem C93_section (w : World) (siblings : List Node) (i : Nat) (n : Node) (hi : siblings[i]? = some n) (ctx : List SectionType)
    (types : Context) (ws : List Warning) (r : Nat × PD (Out (List Parameter))) :
    parseParameters w siblings i ⟨ctx, [], types, ws⟩ = .ok r ↔
      ∃ ps types' vs, SectionRead w n types ps types' vs ∧ r = (i + 1, ⟨ctx, ps, types', ws ++ vs⟩) := by
  rw [parseParameters_item _ hi, outcome_iff]
  constructor
  · rintro ⟨d, h, rfl⟩
    obtain ⟨ps, types', us, hr, rfl⟩ := parametersItem_iff.mp h
    exact ⟨ps, types', us, hr, rfl⟩
  · rintro ⟨ps, types', us, h, rfl⟩
    exact ⟨_, parametersItem_iff.mpr ⟨ps, types', us, h, rfl⟩, rfl⟩

/-- There is one reading at most. -/
theorem C93_one (w : World) (n : Node) (types : Context) {ps ps' : List Parameter} {types₁ types₂ : Context} {vs vs' : List Warning}
    (h : SectionRead w n types ps types₁ vs) (h' : SectionRead w n types ps' types₂ vs') : ps = ps' ∧ types₁ = types₂ ∧ vs = vs' := by
  have e := (C93_section w [n] 0 n rfl [] types [] _).mpr ⟨_, _, _, h, rfl⟩
  have e' := (C93_section w [n] 0 n rfl [] types [] _).mpr ⟨_, _, _, h', rfl⟩
  rw [e] at e'
  simp only [Except.ok.injEq, Prod.mk.injEq, PD.mk.injEq, Out.mk.injEq, List.nil_append, true_and] at e'
  exact e'

theorem joins_names {ps : List Parameter} {p : Parameter} {qs : List Parameter} {ws : List Warning} (h : Joins ps p qs ws)
    (hn : (ps.map (·.name)).Nodup) : (qs.map (·.name)).Nodup := by
  cases h with
  | fresh h =>
    rw [List.map_append, List.nodup_append]
    refine ⟨hn, by simp, ?_⟩
    intro a ha b hb
    obtain ⟨q, hq, rfl⟩ := List.mem_map.mp ha
    simp only [List.map_cons, List.map_nil, List.mem_singleton] at hb
    subst hb
    exact h q hq
  | again h1 h2 h3 =>
    rename_i pre q post
    subst h1
    rw [List.map_append, List.map_cons, List.nodup_append, List.nodup_cons] at hn
    obtain ⟨n1, ⟨n2, n3⟩, n4⟩ := hn
    rw [List.map_append, List.map_append, List.nodup_append, List.nodup_append]
    refine ⟨⟨n1, n3, fun a ha b hb => n4 a ha b (List.mem_cons_of_mem _ hb)⟩, by simp, ?_⟩
    intro a ha b hb
    simp only [List.map_cons, List.map_nil, List.mem_singleton] at hb
    subst hb
    rcases List.mem_append.mp ha with ha | ha
    · obtain ⟨x, hx, rfl⟩ := List.mem_map.mp ha
      exact h2 x hx
    · rintro rfl
      rw [h3] at n2
      exact n2 ha

theorem blocks_names {w : World} {ps : List Parameter} {types : Context} {ns : List Node} {qs : List Parameter} {types' : Context}
    {us : List Warning} (h : ParameterBlocks w ps types ns qs types' us) (hn : (ps.map (·.name)).Nodup) : (qs.map (·.name)).Nodup := by
  induction h with
  | nil => exact hn
  | old _ _ h3 _ ih => exact ih (joins_names h3 hn)
  | new _ _ h3 _ ih => exact ih (joins_names h3 hn)
  | ignored _ _ _ _ ih => exact ih hn

/-- No two parameters of a section have the same name. -/
theorem C93_names (w : World) (siblings : List Node) (i : Nat) (n : Node) (hi : siblings[i]? = some n) (ctx : List SectionType)
    (types : Context) (ws : List Warning) (r : Nat × PD (Out (List Parameter)))
    (h : parseParameters w siblings i ⟨ctx, [], types, ws⟩ = .ok r) : (r.2.data.node.map (·.name)).Nodup := by
  obtain ⟨ps, types', vs, ⟨_, _, _, _, _, _, _, hb, _, _⟩, rfl⟩ := (C93_section w siblings i n hi ctx types ws r).mp h
  exact blocks_names hb (by simp)

/-! ## Reading ends -/

theorem ends_ok {α : Type} (a : α) : Ends (.ok a : Except Stop α) := by intro h; cases h

theorem item_ends {σ : Type} {sg ds f : Node → σ → Except Stop (Bool × σ)} {isD : Node → Bool} {fin : σ → σ} {n : Node} {d : σ}
    (hsg : ∀ m a, Ends (sg m a)) (hds : ∀ m a, Ends (ds m a)) (hf : ∀ m a, Ends (f m a)) :
    Ends (MsonParser.itemResult sg isD ds f fin n d) := by
  unfold MsonParser.itemResult
  split
  case isFalse => intro h; cases h
  split
  · intro h; cases h
  unfold MsonParser.listResult
  split
  · rename_i h; intro h'; cases h'; exact hsg _ _ h
  · exact ends_ok _
  · split
    · rename_i h; intro h'; cases h'; exact walk_ends (fun m _ a => hds m a) _ h
    · exact ends_ok _
    · split
      · rename_i h; intro h'; cases h'; exact walk_ends (fun m _ a => hf m a) _ h
      · exact ends_ok _

theorem values_ends (n : Node) (d : Out (List Bytes)) : Ends (valuesItem n d) :=
  item_ends (fun _ _ => ends_ok _) (fun _ _ => ends_ok _) (fun _ _ => ends_ok _)

theorem describe_ends (w : World) (m : Node) (a : Out Parameter) : Ends (describeStep w m a) := by
  unfold describeStep
  split
  · rename_i h; intro h'; cases h'; exact MsonParser.separated_ends _ h
  · exact ends_ok _

theorem old_ends (w : World) (n : Node) (d : Out Parameter) : Ends (oldItem w n d) := by
  refine item_ends (fun m a => ?_) (describe_ends w) (fun m a => ?_)
  · unfold pass oldSignature
    have := MsonParser.readSignature_ends Spec.LineKinds.oldParameterLine m
    cases h : MsonParser.readSignature Spec.LineKinds.oldParameterLine m with
    | error e => intro h'; cases h'; exact this h
    | ok q => exact ends_ok _
  · unfold oldStep
    split
    · exact ends_ok _
    · split
      · rename_i h; intro h'; cases h'; exact values_ends _ _ h
      · exact ends_ok _

theorem new_ends (w : World) (n : Node) (d : Out Parameter) : Ends (newItem w n d) := by
  have hs : ∀ t b f m a, Ends (sectionStep w t b f m a) := by
    intro t b f m a
    unfold sectionStep
    split
    · rename_i h; intro h'; cases h'; exact (MsonParser.meaning_ends w m).typeSection t b a.types h
    · exact ends_ok _
  refine item_ends (fun m a => ?_) (describe_ends w) (fun m a => ?_)
  · unfold pass newSignature
    have := MsonParser.readSignature_ends Spec.LineKinds.memberLine m
    cases h : MsonParser.readSignature Spec.LineKinds.memberLine m with
    | error e => intro h'; cases h'; exact this h
    | ok q => exact ends_ok _
  · unfold newStep
    split
    · exact ends_ok _
    split
    · exact hs _ _ _ _ _
    split
    · exact hs _ _ _ _ _
    · exact ends_ok _

/-- Reading a section ends. -/
theorem C93_ends (w : World) (siblings : List Node) (i : Nat) (n : Node) (hi : siblings[i]? = some n) (ctx : List SectionType)
    (types : Context) (ws : List Warning) (ps : List Parameter) : parseParameters w siblings i ⟨ctx, ps, types, ws⟩ ≠ .error .diverges := by
  rw [parseParameters_item _ hi]
  have : Ends (parametersItem w n ⟨ps, types, ws⟩) := by
    refine item_ends (fun m a => ends_ok _) (fun _ _ => ends_ok _) (fun m a => ?_)
    have ha : ∀ r qs, Ends r → Ends (added r qs) := by
      intro r qs hr
      unfold added
      split
      · intro h'; cases h'; exact hr rfl
      · exact ends_ok _
    unfold parametersStep
    split
    · exact ends_ok _
    split
    · exact ha _ _ (old_ends _ _ _)
    · exact ha _ _ (new_ends _ _ _)
  cases h : parametersItem w n ⟨ps, types, ws⟩ with
  | error e => intro h'; cases h'; exact this h
  | ok d => intro h'; cases h'

end Verif.Props
