import Verif.Proof.DataStructureAlike
/-!
# From MSON to API Elements (enumerations)
-/
namespace Verif.DataStructure
open Verif Verif.Refract Verif.Registry Verif.Spec Verif.Spec.DataStructure
open Verif.NamedTypes (BaseName TypeName)
open Verif.Mson (Value TypeDef TypeSpec ValueDef PropertyName)

/-- The parts of an enumeration as they are collected. -/
def choices (d : Parts) : Choices :=
  ⟨d.inlines.map (·.elements), d.values.map (·.elements), d.samples.map (·.elements), d.defaults.map (·.elements), merged d.hints⟩

theorem merged_flatten (l : List Info) : merged l = (l.map (·.elements)).flatten := by simp [merged, List.flatMap_def]

theorem map_cloneAll (l : List Elem) : l.map cloneAll = l := by
  induction l with
  | nil => rfl
  | cons a r ih => rw [List.map_cons, cloneAll_id, ih]

theorem onlyValue_only (l : List Info) : onlyValue l = only (l.map (·.elements)) := by
  unfold onlyValue only
  cases l with
  | nil => rfl
  | cons i r =>
    simp only [List.head?_cons, List.map_cons]
    split
    · rename_i h; rw [h]
    · rename_i h
      split
      · rename_i e _ he
        simp only [List.cons.injEq] at he
        exact absurd he.1 (h e)
      · rfl

theorem each_warnings {α β : Type} (f : α → W β) (hf : ∀ a, (f a).warnings = []) : ∀ l, (W.each f l).warnings = []
  | [] => rfl
  | a :: l => by
    rw [W.each]
    cases h : (f a).result with
    | error s => simp [W.bind, h, hf]
    | ok b =>
      rw [W.bind_warnings _ _ _ h, hf, List.nil_append]
      cases h' : (W.each f l).result with
      | error s => simp [W.bind, h', each_warnings f hf l]
      | ok bs => rw [W.bind_warnings _ _ _ h', each_warnings f hf l]; rfl

theorem flagged_all (es : List Elem) (h : ∀ x ∈ es, Sound x) : List.Forall₂ Flagged es (es.map (entryE .enum)) := by
  induction es with
  | nil => exact .nil
  | cons a r ih => exact .cons (entryE_flagged a (h a (by simp))) (ih fun x hx => h x (by simp [hx]))

theorem gathered_mem {l : List (Elem × Bool)} {a b : List Elem} {n : Nat} (h : Gathered l a b n) : ∀ x ∈ b, x ∈ a ∨ x ∈ l.map (·.1) := by
  induction h with
  | done => exact fun x hx => .inl hx
  | new _ _ ih =>
    intro x hx
    rcases ih x hx with hx | hx
    · rcases List.mem_append.1 hx with hx | hx
      · exact .inl hx
      · exact .inr (by simp only [List.mem_singleton] at hx; simp [hx])
    · exact .inr (by rw [List.map_cons]; exact List.mem_cons_of_mem _ hx)
  | again _ _ ih =>
    intro x hx
    rcases ih x hx with hx | hx
    · exact .inl hx
    · exact .inr (by rw [List.map_cons]; exact List.mem_cons_of_mem _ hx)

theorem filtered_mem {P : Elem → Prop} {l l' : List Elem} (h : Filtered P l l') : ∀ x ∈ l', x ∈ l := by
  induction h with
  | nil => simp
  | keep _ _ ih => intro x hx; rcases List.mem_cons.1 hx with rfl | hx; simp; exact List.mem_cons_of_mem _ (ih x hx)
  | drop _ _ ih => intro x hx; exact List.mem_cons_of_mem _ (ih x hx)

theorem saveEnum_enumerates (d : Parts) (e e' : Elem) (hd : PartsSound d) (hn : attr e "enumerations" = none)
    (h : (saveEnum d e).result = .ok e') :
    (∃ enums n, Enumerates (choices d) enums n ∧ attr e' "enumerations" = listed enums ∧ (saveEnum d e).warnings = List.replicate n .duplicate) ∧
    Keeps [str "enumerations"] [] (match chosen (choices d) with | some c => e.setData (.enum (some c)) | none => e) e' := by
  have k := saveEnum_ok d e e' h
  rw [onlyValue_only, onlyValue_only] at k
  refine ⟨?_, ?_⟩
  case refine_2 =>
    unfold chosen choices
    simp only
    cases h1 : only (d.inlines.map (·.elements)) with
    | some c => rw [h1] at k; exact k
    | none =>
      rw [h1] at k
      cases h2 : only (d.values.map (·.elements)) with
      | some c => rw [h2] at k; exact k
      | none => rw [h2] at k; exact k
  clear k
  unfold saveEnum at h ⊢
  simp only [map_cloneAll] at h ⊢
  simp only [W.bind_ok] at h
  obtain ⟨l0, h0, l1, h1, l2, h2, l3, h3, l4, h4, l5, h5, h⟩ := h
  rw [W.bind_warnings _ _ _ h0, W.bind_warnings _ _ _ h1, W.bind_warnings _ _ _ h2, W.bind_warnings _ _ _ h3, W.bind_warnings _ _ _ h4,
    W.bind_warnings _ _ _ h5]
  obtain ⟨hF, w0⟩ := withoutValues_ok _ hd.2.1 _ l0 hd.1 h0
  have s0 : ∀ x ∈ l0, Sound x := fun x hx => hd.1 x (filtered_mem hF x hx)
  obtain ⟨n1, g1, w1⟩ := addEnumerations_gathered true l0 [] l1 s0 (by simp) h1
  have mem : ∀ {b : Bool} {l there res : List Elem} {n}, Gathered (l.map fun x => (x, b)) there res n → (∀ x ∈ l, Sound x) →
      (∀ x ∈ there, Sound x) → ∀ x ∈ res, Sound x := by
    intro b l there res n g hl ht x hx
    rcases gathered_mem g x hx with hx | hx
    · exact ht x hx
    · rw [List.map_map] at hx
      obtain ⟨y, hy, rfl⟩ := List.mem_map.1 hx
      exact hl y hy
  have s1 := mem g1 s0 (by simp)
  obtain ⟨n2, g2, w2⟩ := addEnumerations_gathered true _ l1 l2 hd.2.1 s1 h2
  have s2 := mem g2 hd.2.1 s1
  obtain ⟨n3, g3, w3⟩ := addEnumerations_gathered false _ l2 l3 hd.2.2.2.1 s2 h3
  have s3 := mem g3 hd.2.2.2.1 s2
  obtain ⟨n4, g4, w4⟩ := addEnumerations_gathered false _ l3 l4 hd.2.2.1 s3 h4
  have s4 := mem g4 hd.2.2.1 s3
  obtain ⟨n5, g5, w5⟩ := addEnumerations_gathered true _ l4 l5 hd.2.2.2.2 s4 h5
  have s5 := mem g5 hd.2.2.2.2 s4
  have G := gathered_append g1 (gathered_append g2 (gathered_append g3 (gathered_append g4 g5)))
  refine ⟨l5.map (entryE .enum), n1 + (n2 + (n3 + (n4 + n5))), ⟨l0, l5, ?_, ?_, flagged_all l5 s5⟩, ?_, ?_⟩
  · simp only [choices]; rw [← merged_flatten, ← merged_flatten]; exact hF
  · simp only [choices, toGather]; rw [← merged_flatten, ← merged_flatten, ← merged_flatten]; exact G
  · split at h
    · rename_i hemp
      cases h
      have : l5 = [] := by simpa using hemp
      subst this
      simp only [List.map_nil, listed, if_pos]
      unfold attr at hn ⊢
      split
      · rw [attributes_setData]; exact hn
      · split
        · rw [attributes_setData]; exact hn
        · exact hn
    · rename_i hemp
      simp only [W.bind_ok, W.pure_result, Except.ok.injEq] at h
      obtain ⟨l6, h6, rfl⟩ := h
      rw [flag_each l5 l6 s5 h6, attr, find_setAttr, if_pos rfl]
      have : l5 ≠ [] := by simpa using hemp
      unfold listed
      rw [if_neg (by simpa using this)]
      rfl
  · rw [w0, w1, w2, w3, w4, w5]
    split
    · simp [List.replicate_append_replicate]
    · have : (W.each (fun x => if isLiteral x = true then W.defined (appendFixed x) else W.pure x) l5).warnings = [] := by
        refine each_warnings _ ?_ _
        intro a; split
        · exact W.defined_warnings _
        · rfl
      split at h
      · contradiction
      · simp only [W.bind_ok, W.pure_result, Except.ok.injEq] at h
        obtain ⟨l6, h6, _⟩ := h
        rw [W.bind_warnings _ _ _ h6, this]
        simp [List.replicate_append_replicate]

end Verif.DataStructure
