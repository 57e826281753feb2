import Verif.Proof.MsonLoop

/-! # The section parser under a header, when a block may take blocks after it or be left to the caller -/

namespace Verif.MsonParser
open Verif Verif.Text Verif.Section Verif.Recognition
open Verif.Payload (drop_cons drop_takeWhile_length takeWhile_length_le)

variable {σ : Type}

/-- One block after the other, each with those after it, until one is not taken (`none`): the blocks that remain, and the data. -/
def many (F : Node → List Node → σ → Except Stop (Option (List Node) × σ)) : Nat → List Node → σ → Except Stop (List Node × σ)
  | _, [], d => .ok ([], d)
  | 0, _ :: _, _ => .error .diverges
  | fuel + 1, n :: ns, d =>
    match F n ns d with
    | .error e => .error e
    | .ok (none, d') => .ok (n :: ns, d')
    | .ok (some r, d') => many F fuel r d'

/-- A step that takes one block. -/
def single (f : Node → σ → Except Stop (Bool × σ)) (n : Node) (ns : List Node) (d : σ) : Except Stop (Option (List Node) × σ) :=
  match f n d with
  | .error e => .error e
  | .ok (b, d') => .ok (if b then some ns else none, d')

theorem many_single (f : Node → σ → Except Stop (Bool × σ)) : ∀ (ns : List Node) (d : σ), many (single f) ns.length ns d = walk f ns d
  | [], d => rfl
  | n :: ns, d => by
    rw [List.length_cons, many, walk, single]
    cases f n d with
    | error e => rfl
    | ok q =>
      obtain ⟨b, d'⟩ := q
      cases b with
      | false => rfl
      | true => exact many_single f ns d'

/-- What is left are the last blocks. -/
def Suffixes (F : Node → List Node → σ → Except Stop (Option (List Node) × σ)) : Prop :=
  ∀ n ns d r d', F n ns d = .ok (some r, d') → r <:+ ns

theorem single_suffixes (f : Node → σ → Except Stop (Bool × σ)) : Suffixes (single f) := by
  intro n ns d r d' h
  unfold single at h
  cases hf : f n d with
  | error e => rw [hf] at h; cases h
  | ok q =>
    obtain ⟨b, x⟩ := q
    rw [hf] at h
    cases b <;> simp at h
    rw [h.1]
    exact List.suffix_refl _

theorem many_suffix {F : Node → List Node → σ → Except Stop (Option (List Node) × σ)} (hF : Suffixes F) : ∀ {fuel ns d r d'},
    many F fuel ns d = .ok (r, d') → r <:+ ns
  | _, [], d, r, d', h => by rw [many] at h; cases h; exact List.suffix_refl _
  | 0, n :: ns, d, r, d', h => by rw [many] at h; cases h
  | fuel + 1, n :: ns, d, r, d', h => by
    rw [many] at h
    split at h
    · cases h
    · cases h; exact List.suffix_refl _
    · rename_i hx
      exact (many_suffix hF h).trans ((hF _ _ _ _ _ hx).trans (List.suffix_cons _ _))

/-- One step at `cur` of blocks of which there are `l`. -/
def movedTo (l cur : Nat) (ctx : List SectionType) : Except Stop (Option (List Node) × σ) → Except Stop (Nat × PD σ)
  | .error e => .error e
  | .ok (none, d) => .ok (cur, ⟨ctx, d⟩)
  | .ok (some r, d) => .ok (l - r.length, ⟨ctx, d⟩)

theorem drop_suffix {ns r : List Node} {k : Nat} (h : r <:+ ns.drop k) : ns.drop (ns.length - r.length) = r := by
  have hr : r <:+ ns := h.trans (List.drop_suffix _ _)
  obtain ⟨pre, rfl⟩ := hr
  simp

theorem nestedLoop_many {o : Own σ} {skips : Bool} {child : SectionType → Parse σ} {ns : List Node}
    {ctx : List SectionType} {F : Node → List Node → σ → Except Stop (Option (List Node) × σ)} (hF : Suffixes F)
    (h : ∀ cur n last d, ns[cur]? = some n →
      nestedStep o skips child ns n cur last ⟨o.nestedType n :: ctx, d⟩ =
        movedTo ns.length cur (o.nestedType n :: ctx) (F n (ns.drop (cur + 1)) d)) :
    ∀ fuel fuel' cur last d, cur ≤ ns.length → ns.length - cur ≤ fuel → ns.length - cur ≤ fuel' →
      nestedLoop o skips child ns fuel cur last ⟨ctx, d⟩ =
        match many F fuel' (ns.drop cur) d with
        | .error e => .error e
        | .ok (r, d') => .ok (ns.length - r.length, ⟨ctx, d'⟩) := by
  intro fuel
  induction fuel with
  | zero =>
    intro fuel' cur last d hc hf hf'
    have : cur = ns.length := by omega
    subst this
    rw [nestedLoop]; simp [many]
  | succ fuel ih =>
    intro fuel' cur last d hc hf hf'
    by_cases hl : cur < ns.length
    case neg =>
      have : cur = ns.length := by omega
      subst this
      rw [nestedLoop]; simp [many]
    have hn : ns[cur]? = some ns[cur] := List.getElem?_eq_getElem hl
    rw [nestedLoop, hn]
    simp only
    obtain ⟨fuel', rfl⟩ : ∃ k, fuel' = k + 1 := ⟨fuel' - 1, by omega⟩
    rw [h cur _ last d hn, drop_cons hn, many]
    cases hf' : F ns[cur] (ns.drop (cur + 1)) d with
    | error e => rfl
    | ok r =>
      obtain ⟨b, d'⟩ := r
      cases b with
      | none =>
        simp only [movedTo, if_true, List.tail_cons, List.length_cons, List.length_drop]
        congr 2
        omega
      | some r =>
        have hs := hF _ _ _ _ _ hf'
        have hle := hs.length_le
        rw [List.length_drop] at hle
        have h1 := drop_suffix hs
        simp only [movedTo]
        rw [if_neg (by omega), List.tail_cons, ih fuel' (ns.length - r.length) _ d' (by omega) (by omega) (by omega), h1]

/-- A section under a header: signature, description blocks, nested blocks; and the blocks that are left. -/
def headResult (sg : Node → σ → Except Stop (Bool × σ)) (isD : Node → Bool) (ds : Node → σ → Except Stop (Bool × σ))
    (F : Node → List Node → σ → Except Stop (Option (List Node) × σ)) (fin : σ → σ) (sig : Node) (blocks : List Node) (d : σ) :
    Except Stop (List Node × σ) :=
  match sg sig d with
  | .error e => .error e
  | .ok (false, d) => .ok (sig :: blocks, d)
  | .ok (true, d) =>
    match walk ds (blocks.takeWhile isD) d with
    | .error e => .error e
    | .ok (r :: rs, d) => .ok (r :: rs ++ blocks.dropWhile isD, d)
    | .ok ([], d) =>
      match many F (blocks.dropWhile isD).length (blocks.dropWhile isD) d with
      | .error e => .error e
      | .ok (r, d) => .ok (r, fin d)

/-- Where the parser is after it. -/
def at_ (l : Nat) (ctx : List SectionType) : Except Stop (List Node × σ) → Except Stop (Nat × PD σ)
  | .error e => .error e
  | .ok (r, d) => .ok (l - r.length, ⟨ctx, d⟩)

theorem parse_header {o : Own σ} {child : SectionType → Parse σ} {ns : List Node} {i : Nat} {n : Node}
    {ctx : List SectionType} {sg ds : Node → σ → Except Stop (Bool × σ)} {isD : Node → Bool}
    {F : Node → List Node → σ → Except Stop (Option (List Node) × σ)} {fin : σ → σ} (d : σ)
    (hi : ns[i]? = some n) (hk : n.kind = .header) (hF : Suffixes F)
    (hsg : ∀ m d, ns[i]? = some m → o.signature ns i ⟨ctx, d⟩ =
      match sg m d with
      | .error e => .error e
      | .ok (b, d') => .ok (.done (if b then i + 1 else i) .default ⟨ctx, d'⟩))
    (hisD : ∀ n d, o.isDescription n (⟨ctx, d⟩ : PD σ).top = isD n)
    (hds : ∀ j m d, ns[j]? = some m → isD m = true → o.description ns j ⟨ctx, d⟩ = moved j ctx (ds m d))
    (hcs : ∀ n t, o.isContent n t = false)
    (hpre : ∀ j d, o.preprocess ns j ⟨ctx, d⟩ = .ok ⟨ctx, d⟩)
    (hf : ∀ j m last d, ns[j]? = some m → nestedStep o false child ns m j last ⟨o.nestedType m :: ctx, d⟩ =
        movedTo ns.length j (o.nestedType m :: ctx) (F m (ns.drop (j + 1)) d))
    (hfin : ∀ j d, o.finalize ns j ⟨ctx, d⟩ = .ok ⟨ctx, fin d⟩) :
    parseSection o .header child ns i ⟨ctx, d⟩ = at_ ns.length ctx (headResult sg isD ds F fin n (ns.drop (i + 1)) d) := by
  have hlt : i < ns.length := (List.getElem?_eq_some_iff.mp hi).1
  unfold parseSection Adapter.start
  simp only [hi]
  rw [if_pos hk]
  simp only
  rw [hsg _ _ hi]
  generalize hblocks : ns.drop (i + 1) = blocks
  have hbl : blocks.length = ns.length - (i + 1) := by rw [← hblocks, List.length_drop]
  unfold headResult
  cases sg n d with
  | error e => rfl
  | ok q =>
    obtain ⟨b, d₁⟩ := q
    cases b with
    | false =>
      simp only [Bool.false_eq_true, if_false]
      unfold body
      rw [if_pos rfl]
      simp only [Adapter.next, at_, List.length_cons, hbl]
      congr 2
      omega
    | true =>
      simp only [if_true]
      unfold body
      rw [if_neg (by omega), phase_walk hisD hds _ _ _ (by omega) rfl, hblocks]
      cases hw : walk ds (blocks.takeWhile isD) d₁ with
      | error e => rfl
      | ok q =>
        obtain ⟨r, d₂⟩ := q
        have l1 := takeWhile_length_le isD blocks
        have l2 := walk_length hw
        have l3 : (blocks.takeWhile isD).length + (blocks.dropWhile isD).length = blocks.length := by
          rw [← List.length_append, List.takeWhile_append_dropWhile]
        cases r with
        | cons a r =>
          simp only [List.isEmpty_cons, Adapter.next, at_, List.length_append, List.length_cons] at l2 ⊢
          congr 2
          omega
        | nil =>
          simp only [List.isEmpty_nil, List.length_nil, Nat.sub_zero]
          have e1 : ns.drop (i + 1 + (blocks.takeWhile isD).length) = blocks.dropWhile isD := by
            rw [← List.drop_drop, hblocks, drop_takeWhile_length]
          rw [phase_walk (g := fun _ d => .ok (true, d)) (p := fun _ => false) (fun n d => hcs n _) (by simp) _ _ _ (by omega) rfl]
          have e0 : ∀ l : List Node, l.takeWhile (fun _ => false) = [] := by intro l; cases l <;> rfl
          rw [e0]
          simp only [walk, List.length_nil, Nat.sub_zero, Nat.add_zero, List.isEmpty_nil]
          unfold closing parseNested
          simp only [hpre, Adapter.skips]
          rw [nestedLoop_many hF hf _ (blocks.dropWhile isD).length _ _ _ (by omega) (by omega) (by omega), e1]
          cases many F (blocks.dropWhile isD).length (blocks.dropWhile isD) d₂ with
          | error e => rfl
          | ok q => simp only [hfin, Adapter.next, at_]

end Verif.MsonParser
