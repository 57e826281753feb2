import Verif.Spec.ParametersParser
import Verif.Proof.MsonSections

/-! # The values of a parameter -/

namespace Verif.ParametersParser
open Verif Verif.Text Verif.Section Verif.Recognition Verif.Regex Verif.Spec Verif.Spec.Regex Verif.Spec.Recognition Verif.Spec.MsonParser
open Verif.Spec.ParametersParser
open Verif.MsonParser (walk moved itemResult listResult trimmed_iff)
open Verif.Parameters (Parameter)
open Verif.Mson (Context)
open Verif.Payload (outcome)

/-! ## What is between backticks -/

/-- The expression of a value. -/
def tick : Rx := .cls false [(96, 96)]
def quoteRx : Rx := .seq tick (.seq (.group 1 (.plus (.cls true [(96, 96)]))) tick)

theorem c_value : compile valueRegex = some ⟨false, quoteRx, false⟩ := by decide +kernel

theorem tick_iff {s : Bytes} : Lang tick s ↔ s = [asc '`'] := by
  unfold tick
  rw [lang_cls]
  constructor
  · rintro ⟨c, rfl, h⟩; rw [oneOf_single.mp h]; rfl
  · rintro rfl; exact ⟨_, rfl, oneOf_single.mpr rfl⟩

theorem inner_iff {s : Bytes} : Lang (.plus (.cls true [(96, 96)])) s ↔ s ≠ [] ∧ asc '`' ∉ s := by
  rw [lang_plus_cls]
  refine and_congr_right fun _ => ?_
  have hc : ∀ c : UInt8, OneOf true [(96, 96)] c ↔ c ≠ asc '`' := by
    intro c
    rw [← inClass_iff]
    simp only [inClass, List.any_cons, List.any_nil, Bool.or_false, bne_iff_ne, ne_eq, Bool.not_eq_true, Bool.and_eq_true, decide_eq_true_eq,
      Bool.and_eq_false_iff, decide_eq_false_iff_not]
    have e : asc '`' = 96 := rfl
    rw [e]
    constructor
    · intro h hc; subst hc; simp at h
    · intro h
      have : ¬ (96 ≤ c ∧ c ≤ 96) := fun ⟨a, b⟩ => h (UInt8.le_antisymm b a)
      simpa using this
  constructor
  · intro h hm; exact (hc _).mp (h _ hm) rfl
  · intro h c hcm; exact (hc c).mpr fun e => h (e ▸ hcm)

theorem quote_iff {s : Bytes} : Lang quoteRx s ↔ ∃ v, s = asc '`' :: v ++ [asc '`'] ∧ v ≠ [] ∧ asc '`' ∉ v := by
  unfold quoteRx
  rw [lang_seq]
  constructor
  · rintro ⟨x, y, rfl, hx, hy⟩
    obtain ⟨v, z, rfl, hv, hz⟩ := lang_seq.mp hy
    rw [tick_iff] at hx hz
    subst hx; subst hz
    rw [lang_group, inner_iff] at hv
    exact ⟨v, rfl, hv⟩
  · rintro ⟨v, rfl, hv⟩
    exact ⟨[asc '`'], v ++ [asc '`'], rfl, tick_iff.mpr rfl, lang_seq.mpr ⟨v, _, rfl, lang_group.mpr (inner_iff.mpr hv), tick_iff.mpr rfl⟩⟩

theorem quote_caps {v : Bytes} (h : v ≠ [] ∧ asc '`' ∉ v) : ((caps quoteRx (asc '`' :: v ++ [asc '`'])).lookup 1).getD [] = v := by
  have hl : Lang quoteRx (asc '`' :: v ++ [asc '`']) := quote_iff.mpr ⟨v, rfl, h⟩
  obtain ⟨c, t, he, -, ht, hc⟩ := caps_cls_seq hl
  rw [show (caps quoteRx (asc '`' :: v ++ [asc '`'])) = _ from hc]
  simp only [List.cons_append, List.cons.injEq] at he
  obtain ⟨-, he⟩ := he
  subst he
  obtain ⟨x, y, hxy, hx, hy, hc', -⟩ := caps_seq ht
  rw [hc', caps_group]
  have : y = [asc '`'] := tick_iff.mp hy
  subst this
  have : v = x := List.append_cancel_right hxy
  subst this
  simp

theorem quoted_some {t v : Bytes} {g : List Bytes} (h : regexCapture t valueRegex = some g) : g.getD 1 [] = v ↔ Quoted t v := by
  unfold regexCapture at h
  split at h
  · cases h
  · rw [c_value] at h
    simp only at h
    split at h
    · cases h
    rename_i m hs
    cases h
    obtain ⟨b, r, h1, h2, h3⟩ := search_some hs
    obtain ⟨u, rfl, hu⟩ := quote_iff.mp h2.1
    rw [getD_range (by omega), if_neg (by omega), quote_caps hu]
    have hb : Between (cstr t) b u r := ⟨by rw [h1]; simp, hu⟩
    have hmin : ∀ x' v' y', Between (cstr t) x' v' y' → b.length ≤ x'.length := by
      rintro x' v' y' ⟨he, hv'⟩
      rcases h3 x' (asc '`' :: v' ++ [asc '`']) y' (by rw [he]; simp) (quote_iff.mpr ⟨v', rfl, hv'⟩) (by simp) with h | h <;> omega
    have h0 := cstr_iff.mp (rfl : cstr t = cstr t)
    constructor
    · rintro rfl; exact ⟨cstr t, b, r, h0.1, h0.2, hb, hmin⟩
    · rintro ⟨s, x, y, hs0, hs1, hs2, hs3⟩
      have : s = cstr t := cstr_iff.mpr ⟨hs0, hs1⟩
      subst this
      have hlen : b.length = x.length := Nat.le_antisymm (hmin _ _ _ hs2) (hs3 _ _ _ hb)
      have e := hb.1.symm.trans hs2.1
      simp only [List.append_assoc] at e
      obtain ⟨-, e2⟩ := List.append_inj e hlen
      simp only [List.cons_append, List.cons.injEq, true_and, List.append_assoc] at e2
      have aux : ∀ (a b : Bytes) (y z : Bytes), asc '`' ∉ a → asc '`' ∉ b → a ++ asc '`' :: y = b ++ asc '`' :: z → a = b := by
        intro a
        induction a with
        | nil =>
          intro b y z _ hb he
          cases b with
          | nil => rfl
          | cons c b => simp only [List.nil_append, List.cons_append, List.cons.injEq] at he; rw [← he.1] at hb; simp at hb
        | cons c a ih =>
          intro b y z ha hb he
          cases b with
          | nil => simp only [List.nil_append, List.cons_append, List.cons.injEq] at he; rw [he.1] at ha; simp at ha
          | cons d b =>
            simp only [List.cons_append, List.cons.injEq] at he
            rw [he.1, ih b y z (fun h => ha (List.mem_cons_of_mem _ h)) (fun h => hb (List.mem_cons_of_mem _ h)) he.2]
      exact aux _ _ _ _ hu.2 hs2.2.2 e2

theorem quoted_none {t : Bytes} (h : regexCapture t valueRegex = none) (v : Bytes) : ¬ Quoted t v := by
  rintro ⟨s, x, y, hs0, hs1, hs2, -⟩
  have : s = cstr t := cstr_iff.mpr ⟨hs0, hs1⟩
  subst this
  unfold regexCapture at h
  have ht : t.isEmpty = false := by
    cases t with
    | nil => obtain ⟨he, -⟩ := hs2; simp [cstr] at he
    | cons => rfl
  rw [ht, c_value] at h
  simp only [Bool.false_or, show valueRegex.isEmpty = false by decide, Bool.false_eq_true, if_false] at h
  split at h
  · rename_i hs
    refine search_none hs x (asc '`' :: v ++ [asc '`']) y (by rw [hs2.1]; simp) ⟨quote_iff.mpr ⟨v, rfl, hs2.2⟩, by simp, by simp⟩
  · cases h

/-! ## The blocks -/

/-- The report of a block that is left out. -/
def ignoredAs (n : Node) : Warning := .mson (if n.kind = .header then .unexpectedHeader else .unrecognised)

theorem ignored_iff {n : Node} {x : Warning} : Ignored n x ↔ x = ignoredAs n := by
  unfold ignoredAs
  constructor
  · intro h
    cases h with
    | header h => rw [if_pos h]
    | other h => rw [if_neg h]
  · rintro rfl
    split
    · exact .header ‹_›
    · exact .other ‹_›

theorem isValue_iff {n : Node} {t : Bytes} : IsValue n t ↔ valueType n = .value ∧ t = frontText n := by
  unfold IsValue valueType frontText
  rw [trimmed_iff]
  match hc : n.children with
  | [] => simp
  | [c] =>
    simp only [List.cons.injEq, and_true, exists_eq_left', List.length_singleton, true_and, List.head?_cons, Option.map_some, Option.getD_some]
    constructor
    · rintro ⟨h, rfl, h'⟩
      refine ⟨if_pos ⟨h, ?_⟩, rfl⟩
      cases hx : (trim c.text).isEmpty with
      | false => rfl
      | true => exact absurd (List.isEmpty_iff.mp hx).symm h'
    · rintro ⟨h, rfl⟩
      split at h
      · rename_i hh
        refine ⟨hh.1, rfl, fun e => ?_⟩
        rw [← e] at hh; simp at hh
      · cases h
  | c :: d :: cs => simp

/-- One block. -/
def valueStep (n : Node) (o : Out (List Bytes)) : Except Stop (Bool × Out (List Bytes)) :=
  .ok (true, if valueType n = .value then addValue n o else o.warn [ignoredAs n])

theorem valueBlocks_iff : ∀ {ns : List Node} {vs : List Bytes} {types : Context} {ws : List Warning} {r : List Node} {o : Out (List Bytes)},
    walk valueStep ns ⟨vs, types, ws⟩ = .ok (r, o) ↔
      r = [] ∧ ∃ us xs, ValueBlocks ns us xs ∧ o = ⟨vs ++ us, types, ws ++ xs⟩
  | [], vs, types, ws, r, o => by
    simp only [walk, Except.ok.injEq, Prod.mk.injEq]
    constructor
    · rintro ⟨rfl, rfl⟩; exact ⟨rfl, [], [], .nil, by simp⟩
    · rintro ⟨rfl, us, xs, h, rfl⟩; cases h; simp
  | n :: ns, vs, types, ws, r, o => by
    rw [walk, valueStep]
    simp only
    by_cases hv : valueType n = .value
    · rw [if_pos hv]
      have hi : IsValue n (frontText n) := isValue_iff.mpr ⟨hv, rfl⟩
      have hu : ∀ {t}, IsValue n t → t = frontText n := fun h => (isValue_iff.mp h).2
      unfold addValue
      cases hc : regexCapture (frontText n) valueRegex with
      | some g =>
        simp only
        have hq : Quoted (frontText n) (g.getD 1 []) := (quoted_some hc).mp rfl
        rw [valueBlocks_iff]
        constructor
        · rintro ⟨rfl, us, xs, h, rfl⟩
          exact ⟨rfl, _, xs, .value hi hq h, by simp⟩
        · rintro ⟨rfl, us, xs, h, rfl⟩
          cases h with
          | value h1 h2 h3 =>
            rw [hu h1] at h2
            rw [← (quoted_some hc).mpr h2]
            exact ⟨rfl, _, _, h3, by simp⟩
          | bare h1 h2 h3 h4 => rw [hu h1] at h2; exact absurd hq (h2 _)
          | ignored h1 _ _ => exact absurd hi (h1 _)
      | none =>
        simp only [Out.warn]
        rw [valueBlocks_iff]
        constructor
        · rintro ⟨rfl, us, xs, h, rfl⟩
          exact ⟨rfl, us, _, .bare hi (quoted_none hc) (trimmed_iff.mpr rfl) h, by simp⟩
        · rintro ⟨rfl, us, xs, h, rfl⟩
          cases h with
          | value h1 h2 h3 => rw [hu h1] at h2; exact absurd h2 (quoted_none hc _)
          | bare h1 h2 h3 h4 =>
            rw [hu h1, trimmed_iff] at h3; subst h3
            exact ⟨rfl, _, _, h4, by simp⟩
          | ignored h1 _ _ => exact absurd hi (h1 _)
    · rw [if_neg hv]
      have hi : ∀ t, ¬ IsValue n t := fun t h => hv (isValue_iff.mp h).1
      simp only [Out.warn]
      rw [valueBlocks_iff]
      constructor
      · rintro ⟨rfl, us, xs, h, rfl⟩
        exact ⟨rfl, us, _, .ignored hi (ignored_iff.mpr rfl) h, by simp⟩
      · rintro ⟨rfl, us, xs, h, rfl⟩
        cases h with
        | value h1 h2 h3 => exact absurd h1 (hi _)
        | bare h1 h2 h3 h4 => exact absurd h1 (hi _)
        | ignored h1 h2 h3 =>
          rw [ignored_iff] at h2; subst h2
          exact ⟨rfl, us, _, h3, by simp⟩

/-! ## The list item -/

/-- No child parsers. -/
abbrev noChild {σ : Type} (_ : SectionType) : Parse σ := fun _ i pd => .ok (i, pd)

/-- No block is a description. -/
def never (_ : Node) : Bool := false

/-- The signature is only passed. -/
def pass {α : Type} (f : Node → Out α → Except Stop (Out α)) (n : Node) (o : Out α) : Except Stop (Bool × Out α) :=
  match f n o with
  | .error e => .error e
  | .ok o => .ok (true, o)

theorem oneSignature_none {α : Type} {f : Node → Out α → Except Stop (Out α)} {ns : List Node} {j : Nat} {pd : PD (Out α)}
    (h : ns[j]? = none) : oneSignature f ns j pd = .error .outOfRange := by
  unfold oneSignature; rw [h]

theorem oneSignature_some {α : Type} {f : Node → Out α → Except Stop (Out α)} {ns : List Node} {j : Nat} {m : Node} {ctx : List SectionType}
    {d : Out α} (h : ns[j]? = some m) : oneSignature f ns j ⟨ctx, d⟩ =
      match pass f m d with
      | .error e => .error e
      | .ok (b, d') => .ok (.done (if b then j + 1 else j) .default ⟨ctx, d'⟩) := by
  unfold oneSignature pass
  rw [h]
  simp only
  cases f m d <;> rfl

theorem step_unexpected {α : Type} {o : Own (Out α)} (ho : ∀ ns i last, o.unexpected ns i last = unexpected ns i) {ns : List Node} {n : Node}
    {i : Nat} {last : SectionType} {ctx : List SectionType} {d : Out α} (hi : ns[i]? = some n) (ht : o.nestedType n = .undefined) :
    nestedStep o true noChild ns n i last ⟨ctx, d⟩ = moved i ctx (.ok (true, d.warn [ignoredAs n])) := by
  unfold nestedStep
  rw [if_neg (by simp [ht])]
  simp only [Bool.true_or, if_true, ho, unexpected, hi]
  rfl

theorem values_item {siblings : List Node} {i : Nat} {n : Node} {ctx : List SectionType} (d : Out (List Bytes)) (hi : siblings[i]? = some n) :
    parseValues siblings i ⟨ctx, d⟩ =
      outcome i ctx (itemResult (fun _ o => .ok (true, o)) never (fun _ o => .ok (true, o)) valueStep id n d) := by
  refine MsonParser.parse_list d hi ?_ ?_ ?_ ?_ ?_ ?_ ?_ ?_
  · intro ns j d hn; exact oneSignature_none (f := fun _ o => .ok o) hn
  · intro ns j m d hm; exact oneSignature_some (f := fun _ o => .ok o) hm
  · intro n d; rfl
  · intro ns j m d _ hd; cases hd
  · intro n t; rfl
  · intro ns j d; rfl
  · intro ns j m last d hm
    by_cases hv : valueType m = .value
    · have ht : valuesOwn.nestedType m = .value := hv
      rw [ht]
      unfold nestedStep
      rw [if_pos (by rw [ht]; simp)]
      simp only [valuesOwn, hm, PD.top]
      unfold valueStep
      rw [if_pos hv]
      rfl
    · have ht : valuesOwn.nestedType m = .undefined := by
        show valueType m = .undefined
        unfold valueType at hv ⊢
        split at hv
        · exact absurd rfl hv
        · rw [if_neg ‹_›]
      rw [step_unexpected (fun _ _ _ => rfl) hm ht]
      unfold valueStep
      rw [if_neg hv]
  · intro ns j d; rfl

/-- The result of an item whose blocks are all taken or left at once. -/
theorem item_iff {σ : Type} {sg ds f : Node → σ → Except Stop (Bool × σ)} {isD : Node → Bool} {fin : σ → σ} {n : Node} {d d' : σ}
    (hsg : ∀ m a c a', sg m a = .ok (c, a') → c = true) (hds : ∀ m a c a', ds m a = .ok (c, a') → c = true) :
    itemResult sg isD ds f fin n d = .ok d' ↔ ∃ sig blocks d₁ d₂ r d₃, Spec.Payload.Parts n sig blocks ∧ sg sig d = .ok (true, d₁) ∧
      walk ds (blocks.takeWhile isD) d₁ = .ok ([], d₂) ∧ walk f (blocks.dropWhile isD) d₂ = .ok (r, d₃) ∧ d' = fin d₃ := by
  have hw : ∀ {ns a r a'}, walk ds ns a = .ok (r, a') → r = [] := by
    intro ns
    induction ns with
    | nil => intro a r a' h; rw [walk] at h; cases h; rfl
    | cons m ns ih =>
      intro a r a' h
      rw [walk] at h
      split at h
      · cases h
      · exact ih h
      · have := hds _ _ _ _ ‹_›; cases this
  have key : ∀ sig blocks, listResult sg isD ds f fin sig blocks d = .ok d' ↔ ∃ d₁ d₂ r d₃, sg sig d = .ok (true, d₁) ∧
      walk ds (blocks.takeWhile isD) d₁ = .ok ([], d₂) ∧ walk f (blocks.dropWhile isD) d₂ = .ok (r, d₃) ∧ d' = fin d₃ := by
    intro sig blocks
    unfold listResult
    cases h1 : sg sig d with
    | error e => simp
    | ok q =>
      obtain ⟨c, d₁⟩ := q
      cases c with
      | false => have := hsg _ _ _ _ h1; cases this
      | true =>
        simp only
        cases h2 : walk ds (blocks.takeWhile isD) d₁ with
        | error e =>
          simp only [reduceCtorEq, false_iff, not_exists, not_and]
          intro a b r c ha hb; cases ha; rw [h2] at hb; cases hb
        | ok q =>
          obtain ⟨r₂, d₂⟩ := q
          have := hw h2; subst this
          simp only
          cases h3 : walk f (blocks.dropWhile isD) d₂ with
          | error e =>
            simp only [reduceCtorEq, false_iff, not_exists, not_and]
            intro a b r c ha hb hc; cases ha; rw [h2] at hb; cases hb; rw [h3] at hc; cases hc
          | ok q =>
            obtain ⟨r₃, d₃⟩ := q
            simp only [Except.ok.injEq]
            constructor
            · rintro rfl; exact ⟨_, _, _, _, rfl, h2, h3, rfl⟩
            · rintro ⟨a, b, r, c, ha, hb, hc, rfl⟩
              cases ha; rw [h2] at hb; cases hb; rw [h3] at hc; cases hc; rfl
  unfold itemResult
  constructor
  · intro h
    split at h
    · rename_i hk
      split at h
      · cases h
      · rename_i sig blocks hr
        obtain ⟨d₁, d₂, r, d₃, h⟩ := (key _ _).mp h
        exact ⟨sig, blocks, d₁, d₂, r, d₃, Payload.parts_iff.mpr ⟨hk, hr⟩, h⟩
    · cases h
  · rintro ⟨sig, blocks, d₁, d₂, r, d₃, hp, h⟩
    obtain ⟨hk, hr⟩ := Payload.parts_iff.mp hp
    rw [if_pos hk, hr]
    exact (key _ _).mpr ⟨d₁, d₂, r, d₃, h⟩

theorem takeWhile_never {l : List Node} : l.takeWhile never = [] ∧ l.dropWhile never = l := by
  cases l <;> simp [never]

theorem outcome_iff {σ : Type} {i : Nat} {ctx : List SectionType} {x : Except Stop σ} {r : Nat × PD σ} :
    outcome i ctx x = .ok r ↔ ∃ d, x = .ok d ∧ r = (i + 1, ⟨ctx, d⟩) := by
  cases x with
  | error e => simp [outcome]
  | ok d => simp [outcome, eq_comm]

/-- The list item as a whole. -/
def valuesItem (n : Node) (d : Out (List Bytes)) : Except Stop (Out (List Bytes)) :=
  itemResult (fun _ o => .ok (true, o)) never (fun _ o => .ok (true, o)) valueStep id n d

theorem parseValues_item {siblings : List Node} {i : Nat} {n : Node} {ctx : List SectionType} (d : Out (List Bytes)) (hi : siblings[i]? = some n) :
    parseValues siblings i ⟨ctx, d⟩ = outcome i ctx (valuesItem n d) := values_item d hi

theorem valuesItem_iff {n : Node} {vs : List Bytes} {types : Context} {ws : List Warning} {d : Out (List Bytes)} :
    valuesItem n ⟨vs, types, ws⟩ = .ok d ↔
      ∃ sig blocks us xs, Spec.Payload.Parts n sig blocks ∧ ValueBlocks blocks us xs ∧ d = ⟨vs ++ us, types, ws ++ xs⟩ := by
  unfold valuesItem
  rw [item_iff (fun _ _ _ _ h => by cases h; rfl) (fun _ _ _ _ h => by cases h; rfl)]
  constructor
  · rintro ⟨sig, blocks, d₁, d₂, r', d₃, hp, h1, h2, h3, rfl⟩
    rw [takeWhile_never.1, walk] at h2
    rw [takeWhile_never.2] at h3
    cases h1; cases h2
    obtain ⟨-, us, xs, hv, rfl⟩ := valueBlocks_iff.mp h3
    exact ⟨sig, blocks, us, xs, hp, hv, rfl⟩
  · rintro ⟨sig, blocks, us, xs, hp, h, rfl⟩
    refine ⟨sig, blocks, ⟨vs, types, ws⟩, ⟨vs, types, ws⟩, [], _, hp, rfl, ?_, ?_, rfl⟩
    · rw [takeWhile_never.1]; rfl
    · rw [takeWhile_never.2]; exact valueBlocks_iff.mpr ⟨rfl, us, xs, h, rfl⟩

end Verif.ParametersParser
