import Verif.Model.MsonParser
import Verif.Proof.PayloadLoop

/-! # The section parser over the blocks of a list item, when a block may be left to the caller -/

namespace Verif.MsonParser
open Verif Verif.Text Verif.Section Verif.Recognition
open Verif.Payload (outcome drop_cons firstMapped_lt drop_takeWhile_length takeWhile_length_le)

variable {σ : Type}

/-- One block after the other, until one is not taken (`false`): the blocks that remain, and the data. -/
def walk (f : Node → σ → Except Stop (Bool × σ)) : List Node → σ → Except Stop (List Node × σ)
  | [], d => .ok ([], d)
  | n :: ns, d =>
    match f n d with
    | .error e => .error e
    | .ok (true, d') => walk f ns d'
    | .ok (false, d') => .ok (n :: ns, d')

/-- One step at `i`. -/
def moved (i : Nat) (ctx : List SectionType) : Except Stop (Bool × σ) → Except Stop (Nat × PD σ)
  | .error e => .error e
  | .ok (b, d) => .ok (if b then i + 1 else i, ⟨ctx, d⟩)

theorem walk_length {f : Node → σ → Except Stop (Bool × σ)} : ∀ {ns : List Node} {d d' : σ} {r : List Node},
    walk f ns d = .ok (r, d') → r.length ≤ ns.length
  | [], d, d', r, h => by
    rw [walk] at h; cases h; simp
  | n :: ns, d, d', r, h => by
    rw [walk] at h
    split at h
    · cases h
    · have := walk_length h; simp; omega
    · cases h; simp

theorem walk_drop {f : Node → σ → Except Stop (Bool × σ)} : ∀ {ns : List Node} {d d' : σ} {r : List Node},
    walk f ns d = .ok (r, d') → r = ns.drop (ns.length - r.length)
  | [], d, d', r, h => by
    rw [walk] at h; cases h; simp
  | n :: ns, d, d', r, h => by
    rw [walk] at h
    split at h
    · cases h
    · have h1 := walk_drop h
      have h2 := walk_length h
      rw [show (n :: ns).length - r.length = (ns.length - r.length) + 1 by simp; omega]
      exact h1
    · cases h; simp

theorem nestedLoop_walk {o : Own σ} {skips : Bool} {child : SectionType → Parse σ} {ns : List Node}
    {ctx : List SectionType} {f : Node → σ → Except Stop (Bool × σ)}
    (h : ∀ cur n last d, ns[cur]? = some n →
      nestedStep o skips child ns n cur last ⟨o.nestedType n :: ctx, d⟩ = moved cur (o.nestedType n :: ctx) (f n d)) :
    ∀ fuel cur last d, cur ≤ ns.length → ns.length - cur = fuel →
      nestedLoop o skips child ns fuel cur last ⟨ctx, d⟩ =
        match walk f (ns.drop cur) d with
        | .error e => .error e
        | .ok (r, d') => .ok (ns.length - r.length, ⟨ctx, d'⟩) := by
  intro fuel
  induction fuel with
  | zero =>
    intro cur last d hc hf
    have : cur = ns.length := by omega
    subst this
    rw [nestedLoop]; simp [walk]
  | succ fuel ih =>
    intro cur last d hc hf
    have hl : cur < ns.length := by omega
    have hn : ns[cur]? = some ns[cur] := List.getElem?_eq_getElem hl
    rw [nestedLoop, hn]
    simp only
    rw [h cur _ last d hn, drop_cons hn, walk]
    cases hf' : f ns[cur] d with
    | error e => rfl
    | ok r =>
      obtain ⟨b, d'⟩ := r
      cases b with
      | true =>
        simp only [moved, if_true]
        rw [if_neg (by omega), List.tail_cons, ih (cur + 1) _ d' (by omega) (by omega)]
      | false =>
        simp only [moved, Bool.false_eq_true, if_false, if_true, List.tail_cons, List.length_cons, List.length_drop]
        congr 2
        omega

theorem phase_walk {is : Node → SectionType → Bool} {step : List Node → Nat → PD σ → Except Stop (Nat × PD σ)}
    {ns : List Node} {ctx : List SectionType} {g : Node → σ → Except Stop (Bool × σ)} {p : Node → Bool}
    (hp : ∀ n d, is n (⟨ctx, d⟩ : PD σ).top = p n)
    (h : ∀ cur n d, ns[cur]? = some n → p n = true → step ns cur ⟨ctx, d⟩ = moved cur ctx (g n d)) :
    ∀ fuel cur d, cur ≤ ns.length → ns.length - cur = fuel →
      phase is step ns fuel cur ⟨ctx, d⟩ =
        match walk g ((ns.drop cur).takeWhile p) d with
        | .error e => .error e
        | .ok (r, d') => .ok (cur + (((ns.drop cur).takeWhile p).length - r.length), ⟨ctx, d'⟩, r.isEmpty) := by
  intro fuel
  induction fuel with
  | zero =>
    intro cur d hc hf
    have : cur = ns.length := by omega
    subst this
    rw [phase]; simp [walk]
  | succ fuel ih =>
    intro cur d hc hf
    have hl : cur < ns.length := by omega
    have hn : ns[cur]? = some ns[cur] := List.getElem?_eq_getElem hl
    rw [phase, hn]
    simp only [hp]
    rw [drop_cons hn, List.takeWhile_cons]
    by_cases hi : p ns[cur] = true
    · rw [if_pos hi, if_pos hi, h cur _ d hn hi, walk]
      cases hf' : g ns[cur] d with
      | error e => rfl
      | ok r =>
        obtain ⟨b, d'⟩ := r
        cases b with
        | true =>
          simp only [moved, if_true]
          rw [if_neg (by omega), ih (cur + 1) d' (by omega) (by omega)]
          cases hw : walk g ((ns.drop (cur + 1)).takeWhile p) d' with
          | error e => rfl
          | ok q =>
            have := walk_length hw
            simp only [List.length_cons, Except.ok.injEq, Prod.mk.injEq, and_true]
            omega
        | false =>
          simp [moved]
    · rw [if_neg hi, if_neg hi]; simp [walk]

/-- A section of a list item: signature, description blocks, nested blocks. -/
def listResult (sg : Node → σ → Except Stop (Bool × σ)) (isD : Node → Bool) (ds f : Node → σ → Except Stop (Bool × σ))
    (fin : σ → σ) (sig : Node) (blocks : List Node) (d : σ) : Except Stop σ :=
  match sg sig d with
  | .error e => .error e
  | .ok (false, d) => .ok d
  | .ok (true, d) =>
    match walk ds (blocks.takeWhile isD) d with
    | .error e => .error e
    | .ok (_ :: _, d) => .ok d
    | .ok ([], d) =>
      match walk f (blocks.dropWhile isD) d with
      | .error e => .error e
      | .ok (_, d) => .ok (fin d)

/-- The same for the whole item. -/
def itemResult (sg : Node → σ → Except Stop (Bool × σ)) (isD : Node → Bool) (ds f : Node → σ → Except Stop (Bool × σ))
    (fin : σ → σ) (n : Node) (d : σ) : Except Stop σ :=
  if n.kind = .listItem then
    match Payload.read n with
    | [] => .error .outOfRange
    | sig :: blocks => listResult sg isD ds f fin sig blocks d
  else .error .thrown

theorem parse_list {o : Own σ} {child : SectionType → Parse σ} {siblings : List Node} {i : Nat} {n : Node}
    {ctx : List SectionType} {sg ds f : Node → σ → Except Stop (Bool × σ)} {isD : Node → Bool} {fin : σ → σ} (d : σ)
    (hi : siblings[i]? = some n)
    (hsg0 : ∀ ns j d, ns[j]? = none → o.signature ns j ⟨ctx, d⟩ = .error .outOfRange)
    (hsg : ∀ ns j m d, ns[j]? = some m → o.signature ns j ⟨ctx, d⟩ =
      match sg m d with
      | .error e => .error e
      | .ok (b, d') => .ok (.done (if b then j + 1 else j) .default ⟨ctx, d'⟩))
    (hisD : ∀ n d, o.isDescription n (⟨ctx, d⟩ : PD σ).top = isD n)
    (hds : ∀ ns j m d, ns[j]? = some m → isD m = true → o.description ns j ⟨ctx, d⟩ = moved j ctx (ds m d))
    (hcs : ∀ n t, o.isContent n t = false)
    (hpre : ∀ ns j d, o.preprocess ns j ⟨ctx, d⟩ = .ok ⟨ctx, d⟩)
    (hf : ∀ ns j m last d, ns[j]? = some m → nestedStep o true child ns m j last ⟨o.nestedType m :: ctx, d⟩ =
        moved j (o.nestedType m :: ctx) (f m d))
    (hfin : ∀ ns j d, o.finalize ns j ⟨ctx, d⟩ = .ok ⟨ctx, fin d⟩) :
    parseSection o .list child siblings i ⟨ctx, d⟩ = outcome i ctx (itemResult sg isD ds f fin n d) := by
  have hlt : i < siblings.length := (List.getElem?_eq_some_iff.mp hi).1
  have hnext : ∀ cur, Adapter.next .list siblings i cur = i + 1 := by
    intro cur; simp only [Adapter.next]; rw [if_neg (by omega)]
  unfold parseSection Adapter.start itemResult
  simp only [hi]
  by_cases hk : n.kind = .listItem
  case neg => rw [if_neg hk, if_neg hk]; rfl
  rw [if_pos hk, if_pos hk]
  simp only
  cases hr : Payload.read n with
  | nil =>
    have : n.children[firstMapped n.children]? = none := by
      unfold Payload.read at hr
      rw [List.drop_eq_nil_iff] at hr
      exact List.getElem?_eq_none hr
    rw [hsg0 _ _ _ this]
    rfl
  | cons sig blocks =>
    unfold Payload.read at hr
    have hne : n.children ≠ [] := by
      intro h; rw [h] at hr; simp at hr
    have hs : n.children[firstMapped n.children]? = some sig := by
      rw [← List.head?_drop, hr]; rfl
    have hb : blocks = n.children.drop (firstMapped n.children + 1) := by
      have := drop_cons hs
      rw [hr] at this
      exact (List.cons.inj this).2
    have hle : firstMapped n.children + 1 ≤ n.children.length := firstMapped_lt hne
    rw [hsg _ _ _ _ hs]
    show _ = outcome i ctx (listResult sg isD ds f fin sig blocks d)
    unfold listResult
    cases sg sig d with
    | error e => rfl
    | ok q =>
      obtain ⟨b, d₁⟩ := q
      cases b with
      | false =>
        simp only [Bool.false_eq_true, if_false]
        unfold body
        rw [if_pos rfl, hnext]
        rfl
      | true =>
        simp only [if_true]
        unfold body
        rw [if_neg (by omega), phase_walk hisD (hds n.children) _ _ _ hle rfl, ← hb]
        cases hw : walk ds (blocks.takeWhile isD) d₁ with
        | error e => rfl
        | ok q =>
          obtain ⟨r, d₂⟩ := q
          cases r with
          | cons a r =>
            simp only [List.isEmpty_cons]
            rw [hnext]; rfl
          | nil =>
            simp only [List.isEmpty_nil, List.length_nil, Nat.sub_zero]
            have l1 := takeWhile_length_le isD blocks
            have hbl : blocks.length = n.children.length - (firstMapped n.children + 1) := by rw [hb, List.length_drop]
            have e1 : n.children.drop (firstMapped n.children + 1 + (blocks.takeWhile isD).length) = blocks.dropWhile isD := by
              rw [← List.drop_drop, ← hb, drop_takeWhile_length]
            rw [phase_walk (g := fun _ d => .ok (true, d)) (p := fun _ => false) (fun n d => hcs n _) (by simp) _ _ _ (by omega) rfl]
            have e0 : ∀ l : List Node, l.takeWhile (fun _ => false) = [] := by intro l; cases l <;> rfl
            rw [e0]
            simp only [walk, List.length_nil, Nat.sub_zero, Nat.add_zero, List.isEmpty_nil]
            unfold closing parseNested
            simp only [hpre, Adapter.skips]
            rw [nestedLoop_walk (hf n.children) _ _ _ _ (by omega) rfl, e1]
            cases walk f (blocks.dropWhile isD) d₂ with
            | error e => rfl
            | ok q => simp only [hfin, hnext]; rfl

end Verif.MsonParser
