import Verif.Spec.Expand
import Verif.Proof.Element
import Verif.Proof.Registry
import Mathlib.Data.List.Forall2
namespace Verif.Expand
open Verif Verif.Refract Verif.Registry Verif.Spec Verif.Spec.Expand

/-! ## The monad -/

/-- The computation ends with `a`. -/
def Ends {α : Type} (x : M α) (a : α) : Prop := x.run = some (.ok a)

/-- The computation ends, not in undefined behaviour, and with an error only if `mix`. -/
def Good (mix : Prop) {α : Type} (x : M α) : Prop := ∃ y, x.run = some y ∧ y ≠ .error .undefined ∧ ((∃ s, y = .error (.circular s)) → mix)

theorem ends_pure {α : Type} (a b : α) : Ends (pure a) b ↔ b = a := by
  simp only [Ends, ExceptT.run, pure, ExceptT.pure, ExceptT.mk, Option.some.injEq, Except.ok.injEq]
  exact eq_comm

theorem run_bind {α β : Type} (x : M α) (f : α → M β) : (x >>= f).run =
    match x.run with | none => none | some (.ok a) => (f a).run | some (.error e) => some (.error e) := by
  cases h : x.run with
  | none => simp only [ExceptT.run_bind, h]; rfl
  | some y => cases y <;> simp only [ExceptT.run_bind, h] <;> rfl

theorem ends_bind {α β : Type} (x : M α) (f : α → M β) (b : β) : Ends (x >>= f) b ↔ ∃ a, Ends x a ∧ Ends (f a) b := by
  simp only [Ends, run_bind]
  cases x.run with
  | none => simp
  | some y => cases y <;> simp

@[simp] theorem ends_undef {α : Type} (a : α) : ¬ Ends undef a := by simp [Ends, undef, ExceptT.run, ExceptT.mk]
@[simp] theorem ends_endless {α : Type} (a : α) : ¬ Ends endless a := by simp [Ends, endless, ExceptT.run, ExceptT.mk]
@[simp] theorem ends_circular {α : Type} (s : Bytes) (a : α) : ¬ Ends (circular s) a := by simp [Ends, circular, ExceptT.run, ExceptT.mk]

theorem good_pure {mix : Prop} {α : Type} (a : α) : Good mix (pure a : M α) := ⟨.ok a, rfl, by simp, by simp⟩
theorem good_circular {mix : Prop} {α : Type} (s : Bytes) (h : mix) : Good mix (circular s : M α) := ⟨.error (.circular s), rfl, by simp, fun _ => h⟩

theorem good_bind {mix : Prop} {α β : Type} (x : M α) (f : α → M β) (hx : Good mix x) (hf : ∀ a, Ends x a → Good mix (f a)) : Good mix (x >>= f) := by
  obtain ⟨y, hy, hne⟩ := hx
  cases y with
  | ok a =>
    obtain ⟨z, hz, hzn⟩ := hf a hy
    exact ⟨z, by rw [run_bind, hy]; exact hz, hzn⟩
  | error e => exact ⟨.error e, by rw [run_bind, hy], by simpa using hne.1, fun ⟨s, hs⟩ => hne.2 ⟨s, by simpa using hs⟩⟩

/-! ## Measures -/

def missing (r : Reg) (ms : List Bytes) : Nat := ((StdMap.keys r).filter (fun k => !ms.contains k)).length

theorem missing_push (r : Reg) (ms : List Bytes) (k : Bytes) (hk : k ∈ StdMap.keys r) (hm : ¬ ms.contains k = true) :
    missing r (k :: ms) < missing r ms := by
  unfold missing
  have : ((StdMap.keys r).filter (fun x => !(k :: ms).contains x)) =
      (((StdMap.keys r).filter (fun x => !ms.contains x)).filter (fun x => x ≠ k)) := by
    rw [List.filter_filter]
    congr 1; funext x
    by_cases h : x = k <;> simp [h, List.contains_cons]
  rw [this]
  have hm' : k ∈ (StdMap.keys r).filter (fun x => !ms.contains x) := by
    rw [List.mem_filter]; exact ⟨hk, by simpa using hm⟩
  exact (List.length_filter_lt_length_iff_exists (p := fun x => decide (x ≠ k))).2 ⟨k, hm', by simp⟩

theorem child_size (e c : Elem) (h : c ∈ children e) : sizeOf c < sizeOf e := by
  obtain ⟨n, m, a, has, d⟩ := e
  cases has with
  | false => simp [children] at h
  | true =>
    cases d <;> simp only [children, List.not_mem_nil] at h
    case array es => have := List.sizeOf_lt_of_mem h; simp only [Elem.mk.sizeOf_spec, Data.array.sizeOf_spec]; omega
    case object es => have := List.sizeOf_lt_of_mem h; simp only [Elem.mk.sizeOf_spec, Data.object.sizeOf_spec]; omega
    case extend es => have := List.sizeOf_lt_of_mem h; simp only [Elem.mk.sizeOf_spec, Data.extend.sizeOf_spec]; omega
    case option es => have := List.sizeOf_lt_of_mem h; simp only [Elem.mk.sizeOf_spec, Data.option.sizeOf_spec]; omega
    case select es => have := List.sizeOf_lt_of_mem h; simp only [Elem.mk.sizeOf_spec, Data.select.sizeOf_spec]; omega
    case enum v =>
      cases v with
      | none => simp at h
      | some x =>
        simp only [Option.toList_some, List.mem_singleton] at h; subst h
        simp only [Elem.mk.sizeOf_spec, Data.enum.sizeOf_spec, Option.some.sizeOf_spec]; omega
    case member k v =>
      rw [List.mem_append] at h
      rcases h with h | h
      · cases k with
        | none => simp at h
        | some x =>
          simp only [Option.toList_some, List.mem_singleton] at h; subst h
          simp only [Elem.mk.sizeOf_spec, Data.member.sizeOf_spec, Option.some.sizeOf_spec]; omega
      · cases v with
        | none => simp at h
        | some x =>
          simp only [Option.toList_some, List.mem_singleton] at h; subst h
          simp only [Elem.mk.sizeOf_spec, Data.member.sizeOf_spec, Option.some.sizeOf_spec]; omega

theorem attribute_size (e x : Elem) (k : Bytes) (h : (k, x) ∈ e.attributes) : sizeOf x < sizeOf e := by
  obtain ⟨n, m, a, has, d⟩ := e
  have h' : (k, x) ∈ a := h
  have := List.sizeOf_lt_of_mem h'
  simp only [Elem.mk.sizeOf_spec, Prod.mk.sizeOf_spec] at *; omega

/-- Induction along the calls of the expansion. -/
theorem expand_ind (r : Reg) (P : List Bytes → Elem → Prop)
    (step : ∀ ms e, (∀ e', sizeOf e' < sizeOf e → P ms e') → (∀ ms' e', missing r ms' < missing r ms → P ms' e') → P ms e) :
    ∀ ms e, P ms e := by
  have h1 : ∀ n ms, missing r ms < n → ∀ e, P ms e := by
    intro n
    induction n with
    | zero => intro ms h; omega
    | succ n ih =>
      intro ms hms
      have h2 : ∀ s e, sizeOf e < s → P ms e := by
        intro s
        induction s with
        | zero => intro e h; omega
        | succ s ihs => exact fun e he => step ms e (fun e' h => ihs e' (by omega)) (fun ms' e' h => ih ms' (by omega) e')
      exact fun e => h2 (sizeOf e + 1) e (by omega)
  exact fun ms e => h1 (missing r ms + 1) ms (by omega) e

/-! ## Expandability -/

theorem orThen_false (a b : Option Bool) : orThen a b = some false ↔ a = some false ∧ b = some false := by
  cases a with
  | none => simp [orThen]
  | some x => cases x <;> simp [orThen]

theorem orThen_ne_none (a b : Option Bool) (ha : a ≠ none) (hb : b ≠ none) : orThen a b ≠ none := by
  cases a with
  | none => simp at ha
  | some x => cases x <;> simp [orThen]; exact hb

theorem expandableL_false (es : List Elem) : expandableL es = some false ↔ ∀ e ∈ es, expandable e = some false := by
  induction es with
  | nil => simp [expandableL]
  | cons e r ih => simp [expandableL, orThen_false, ih]

theorem expandableL_ne_none (es : List Elem) (h : ∀ e ∈ es, expandable e ≠ none) : expandableL es ≠ none := by
  induction es with
  | nil => simp [expandableL]
  | cons e r ih =>
    rw [expandableL]
    exact orThen_ne_none _ _ (h e (by simp)) (ih fun x hx => h x (by simp [hx]))

theorem expandableE_cases (a : Infos) : (expandableE a = some false ∧ ∀ x, (str "enumerations", x) ∉ a) ∨
    ∃ x, (str "enumerations", x) ∈ a ∧ expandableE a = expandable x := by
  induction a with
  | nil => left; simp [expandableE]
  | cons p r ih =>
    obtain ⟨k, v⟩ := p
    rw [expandableE]
    by_cases hk : k = str "enumerations"
    · right; subst hk; exact ⟨v, by simp, by simp [expandableP]⟩
    · simp only [if_neg hk]
      rcases ih with ⟨h1, h2⟩ | ⟨x, h1, h2⟩
      · left; refine ⟨h1, fun x hx => ?_⟩
        rw [List.mem_cons] at hx
        rcases hx with hx | hx
        · simp only [Prod.mk.injEq] at hx; exact hk hx.1.symm
        · exact h2 x hx
      · right; exact ⟨x, by simp [h1], h2⟩

/-- Not expandable: the name is reserved, it is no reference, and no content is expandable. -/
theorem not_expandable (e : Elem) (h : expandable e = some false) :
    e.kind ≠ .ref ∧ isReserved e.name = true ∧ ∀ c ∈ children e, expandable c = some false := by
  obtain ⟨n, m, a, has, d⟩ := e
  rw [expandable] at h
  by_cases hr : d.kind = .ref
  · simp [hr] at h
  · rw [if_neg hr] at h
    by_cases hn : isReserved n = true
    · simp only [hn, Bool.not_true, Bool.false_eq_true, if_false, orThen_false] at h
      refine ⟨hr, hn, ?_⟩
      cases has with
      | false => simp [children]
      | true =>
        have h1 := h.1
        simp only [if_pos] at h1
        cases d <;> simp only [children, expandableD, expandableL_false, List.not_mem_nil, false_imp_iff, implies_true] at h1 ⊢
        case array => exact h1
        case object => exact h1
        case extend => exact h1
        case option => exact h1
        case select => exact h1
        case enum v => cases v <;> simp_all [expandableV]
        case member k v =>
          rw [orThen_false] at h1
          cases k <;> cases v <;> simp_all [expandableO]
    · simp [hn] at h

/-- On usable elements the question is answered. -/
theorem usable_expandable {mix : Prop} (e : Elem) (hu : Usable mix e) : expandable e ≠ none := by
  suffices ∀ s e, sizeOf e < s → (Usable mix e ∨ ((∀ c ∈ children e, Usable mix c) ∧ e.kind = .array)) → expandable e ≠ none from
    this (sizeOf e + 1) e (by omega) (.inl hu)
  intro s
  induction s with
  | zero => intro e h; omega
  | succ s ih =>
    intro e hs hu
    have hkids : ∀ c ∈ children e, expandable c ≠ none := by
      intro c hc
      refine ih c (by have := child_size e c hc; omega) (.inl ?_)
      rcases hu with hu | hu
      · cases hu with | mk _ h => exact h c hc
      · exact hu.1 c hc
    have hval : e.kind = .enum → e.has = true → e.data ≠ .enum none := by
      rcases hu with hu | hu
      · cases hu with | mk _ _ h => exact h
      · intro h; rw [hu.2] at h; simp at h
    have hent : e.kind = .enum → ∀ x, (str "enumerations", x) ∈ e.attributes → expandable x ≠ none := by
      rcases hu with hu | hu
      · intro hk x hx
        cases hu with
        | mk _ _ _ henum hentries => exact ih x (by have := attribute_size e x _ hx; omega) (.inr ⟨hentries hk x hx, (henum hk x hx).2.1⟩)
      · intro h; rw [hu.2] at h; simp at h
    obtain ⟨n, m, a, has, d⟩ := e
    rw [expandable]
    split
    · simp
    · split
      · simp
      · rename_i hr hn
        refine orThen_ne_none _ _ ?_ ?_
        · cases has with
          | false => simp
          | true =>
            simp only [if_pos]
            cases d <;> simp only [children, expandableD] at hkids ⊢
            case array => exact expandableL_ne_none _ hkids
            case object => exact expandableL_ne_none _ hkids
            case extend => exact expandableL_ne_none _ hkids
            case option => exact expandableL_ne_none _ hkids
            case select => exact expandableL_ne_none _ hkids
            case enum v =>
              cases v with
              | none => exact absurd rfl (hval rfl rfl)
              | some x => exact hkids x (by simp)
            case member k v =>
              refine orThen_ne_none _ _ ?_ ?_
              · cases k with
                | none => simp [expandableO]
                | some x => exact hkids x (by simp)
              · cases v with
                | none => simp [expandableO]
                | some x => exact hkids x (by simp)
            all_goals simp
        · split
          · rename_i hk
            rcases expandableE_cases a with ⟨h1, -⟩ | ⟨x, hx, h2⟩
            · rw [h1]; simp
            · rw [h2]; exact hent hk x hx
          · simp

/-! ## The inheritance tree -/

theorem lineage_cons (r : Reg) (seen : List Bytes) (en : Bytes) (e : Elem) (es : List Elem) (h : lineage r seen en = some (e :: es)) :
    ∃ p, StdMap.find r en = some p ∧ ¬ reserved en ∧ e = treeEntry en p ∧ lineage r (en :: seen) p.name = some es := by
  rw [lineage] at h
  split at h
  · simp at h
  · rename_i p hp
    split at h
    · simp at h
    · rename_i hn
      split at h
      · simp at h
      · rw [Option.map_eq_some_iff] at h
        obtain ⟨l, hl, he⟩ := h
        simp only [List.cons.injEq] at he
        exact ⟨p, hp, fun hr => hn ((isReserved_iff _).2 hr), he.1.symm, by rw [← he.2]; exact hl⟩

theorem lineage_entries (r : Reg) (es : List Elem) : ∀ (seen : List Bytes) (en : Bytes), lineage r seen en = some es →
    ∀ e ∈ es, ∃ n p, StdMap.find r n = some p ∧ e = treeEntry n p := by
  induction es with
  | nil => simp
  | cons x xs ih =>
    intro seen en h e he
    obtain ⟨p, hp, -, hx, hl⟩ := lineage_cons r seen en x xs h
    rw [List.mem_cons] at he
    rcases he with rfl | he
    · exact ⟨en, p, hp, hx⟩
    · exact ih _ _ hl e he

/-- The tree of a name: either empty, or the copies of registered elements, and the name is registered. -/
theorem tree_cases (r : Reg) (name : Bytes) : inheritanceTree r name = makeEmpty .extend ∨
    ∃ es, es ≠ [] ∧ inheritanceTree r name = makeElement (.extend es) ∧ lineage r [] name = some es.reverse ∧ name ∈ StdMap.keys r ∧
      ∀ e ∈ es, ∃ n p, StdMap.find r n = some p ∧ e = treeEntry n p := by
  unfold inheritanceTree
  cases h : lineage r [] name with
  | none => left; rfl
  | some l =>
    cases l with
    | nil => left; rfl
    | cons e es =>
      right
      refine ⟨(e :: es).reverse, by simp, rfl, by simp, ?_, ?_⟩
      · obtain ⟨p, hp, -⟩ := lineage_cons r [] name e es h
        exact (StdMap.find_isSome r name).1 (by simp [hp])
      · intro x hx
        exact lineage_entries r _ _ _ h x (List.mem_reverse.1 hx)

theorem treeEntry_fields (n : Bytes) (p : Elem) : (treeEntry n p).kind = p.kind ∧ (treeEntry n p).name = p.kind.name ∧ (treeEntry n p).has = p.has ∧
    (treeEntry n p).data = p.data ∧ (treeEntry n p).attributes = p.attributes ∧
    (treeEntry n p).metas = Infos.set (Infos.erase p.metas (str "id")) (str "ref") (makeElement (.string n)) ∧
    children (treeEntry n p) = children p := by
  obtain ⟨nm, m, a, has, d⟩ := p
  simp only [treeEntry, clone, cloneData_id, cloneInfos_id, Elem.setMetas, Elem.kind, Elem.data, Elem.name, Elem.has, Elem.attributes, Elem.metas]
  refine ⟨rfl, rfl, rfl, rfl, rfl, rfl, ?_⟩
  cases has <;> rfl

theorem kindName_reserved (k : Kind) (h : k ≠ .holder) : reserved k.name := by
  rw [← isReserved_iff]
  cases k <;> first | (exact absurd rfl h) | decide

theorem usable_entry {mix : Prop} (n : Bytes) (p : Elem) (h : Usable mix p) : Usable mix (treeEntry n p) := by
  obtain ⟨h1, h2, h3, h4, h5, -, h6⟩ := treeEntry_fields n p
  cases h with
  | mk _ a b c d e f g =>
    refine .mk _ (by rw [h6]; exact a) (by rw [h1, h3, h4]; exact b) (by rw [h1, h5]; exact c) (by rw [h1, h5]; exact d) (by rw [h1, h6]; exact e) ?_ (by rw [h1]; exact g)
    intro hk
    left
    rw [h2]
    rw [h1] at hk
    exact kindName_reserved _ (by rcases hk with hk | hk <;> rw [hk] <;> simp)

/-! ## Ending -/

theorem good_all {mix : Prop} (r : Reg) (ms : List Bytes) (es : List Elem) (h : ∀ e ∈ es, Good mix (expand r ms e)) : Good mix (expandAll r ms es) := by
  induction es with
  | nil => rw [expandAll]; exact good_pure _
  | cons e es ih =>
    rw [expandAll]
    refine good_bind _ _ (h e (by simp)) fun x _ => good_bind _ _ (ih fun c hc => h c (by simp [hc])) fun xs _ => good_pure _

theorem good_opt {mix : Prop} (r : Reg) (ms : List Bytes) (o : Option Elem) (h : ∀ e ∈ o.toList, Good mix (expand r ms e)) : Good mix (expandOpt r ms o) := by
  cases o with
  | none => rw [expandOpt]; exact good_pure _
  | some e => rw [expandOpt]; exact good_bind _ _ (h e (by simp)) fun x _ => good_pure _

theorem good_members {mix : Prop} (r : Reg) (ms : List Bytes) (e : Elem) (hk : e.kind ≠ .holder) (h : ∀ c ∈ children e, Good mix (expand r ms c)) :
    Good mix (expandMembers r ms e) := by
  obtain ⟨n, m, a, has, d⟩ := e
  rw [expandMembers]
  cases has with
  | false => exact good_pure _
  | true =>
    simp only [Elem.has, if_pos, Elem.data]
    cases d <;> simp only [children] at h ⊢
    case array => exact good_bind _ _ (good_all r ms _ h) fun x _ => good_pure _
    case object => exact good_bind _ _ (good_all r ms _ h) fun x _ => good_pure _
    case extend => exact good_bind _ _ (good_all r ms _ h) fun x _ => good_pure _
    case option => exact good_bind _ _ (good_all r ms _ h) fun x _ => good_pure _
    case select => exact good_bind _ _ (good_all r ms _ h) fun x _ => good_pure _
    case enum => exact good_bind _ _ (good_opt r ms _ h) fun x _ => good_pure _
    case holder => exact absurd rfl hk
    all_goals exact good_pure _

theorem good_attributes {mix : Prop} (r : Reg) (ms : List Bytes) (attrs : Infos)
    (h : ∀ x, (str "enumerations", x) ∈ attrs → x.has = true ∧ x.kind = .array ∧ ∀ c ∈ children x, Good mix (expand r ms c)) :
    ∀ acc, Good mix (enumAttributes r ms acc attrs) := by
  induction attrs with
  | nil => intro acc; rw [enumAttributes]; exact good_pure _
  | cons p rest ih =>
    intro acc
    obtain ⟨k, v⟩ := p
    have ih := ih fun x hx => h x (by simp [hx])
    rw [enumAttributes]
    split
    · rename_i hk
      subst hk
      obtain ⟨h1, h2, h3⟩ := h v (by simp)
      obtain ⟨n, m, a, has, d⟩ := v
      cases d <;> simp only [Elem.kind, Elem.data, Data.kind, reduceCtorEq] at h2
      simp only [Elem.has] at h1
      subst h1
      simp only [Elem.data, Elem.has, if_pos]
      exact good_bind _ _ (good_all r ms _ h3) fun x _ => ih _
    · exact ih _

/-- Every expansion ends, and not in undefined behaviour. -/
theorem good_expand (mix : Prop) (r : Reg) (hac : Acyclic (ParentStep r)) (hreg : ∀ k p, StdMap.find r k = some p → Usable mix p ∧ p.kind ≠ .holder) :
    ∀ ms e, (∀ k ∈ ms, k ∈ StdMap.keys r) → Usable mix e → Good mix (expand r ms e) ∧ ((∀ es, e.data = .option es → reserved e.name → ∀ x, Ends (expand r ms e) x → x.kind = .option)) := by
  refine expand_ind r _ fun ms e ihs ihm hms hu => ?_
  have hopt : ∀ es, e.data = .option es → reserved e.name → ∀ x, Ends (expand r ms e) x → x.kind = .option := by
    intro es hd hn x hx
    rw [expand] at hx
    simp only [hd] at hx
    cases hex : expandable e with
    | none => simp [hex] at hx
    | some b =>
      cases b with
      | false => simp only [hex, ends_pure, clone_cAll] at hx; subst hx; simp [Elem.kind, hd, Data.kind]
      | true =>
        simp only [hex, (isReserved_iff _).2 hn, if_pos] at hx
        rw [expandMembers] at hx
        simp only [hd] at hx
        split at hx
        · rw [ends_bind] at hx
          obtain ⟨xs, -, hx⟩ := hx
          rw [ends_pure] at hx; subst hx; rfl
        · rw [ends_pure] at hx; subst hx; show e.kind.default.kind = _; rw [default_kind]; simp [Elem.kind, hd, Data.kind]
  refine ⟨?_, hopt⟩
  obtain ⟨hkids, hval, henum, hentries, hopts, hfill, href⟩ : (∀ c ∈ children e, Usable mix c) ∧ (e.kind = .enum → e.has = true → e.data ≠ .enum none) ∧
      (e.kind = .enum → ∀ x, (str "enumerations", x) ∈ e.attributes → x.has = true ∧ x.kind = .array ∧ reserved x.name) ∧
      (e.kind = .enum → ∀ x, (str "enumerations", x) ∈ e.attributes → ∀ c ∈ children x, Usable mix c) ∧
      (e.kind = .select → ∀ c ∈ children e, c.kind = .option ∧ reserved c.name) ∧
      (e.kind = .select ∨ e.kind = .member → reserved e.name ∨ e.has = true) ∧ (e.kind = .ref → mix) := by
    cases hu with | mk _ a b c d e f g => exact ⟨a, b, c, d, e, f, g⟩
  have hgk : ∀ c ∈ children e, Good mix (expand r ms c) := fun c hc => (ihs c (child_size e c hc) hms (hkids c hc)).1
  have hgx : ∀ k t, StdMap.find r k = some t → ¬ ms.contains k = true → ∀ c, Usable mix c → Good mix (expand r (k :: ms) c) := by
    intro k t hf hk c hc
    have hkk : k ∈ StdMap.keys r := (StdMap.find_isSome r k).1 (by simp [hf])
    refine (ihm (k :: ms) c (missing_push r ms k hkk hk) ?_ hc).1
    intro k' hk'
    rw [List.mem_cons] at hk'
    rcases hk' with rfl | hk'
    · exact hkk
    · exact hms k' hk'
  -- named types
  have hnamed : e.kind ≠ .holder → Good mix (expandNamed r ms e) := by
    intro hk
    rw [expandNamed]
    split
    · rename_i hin
      have hin' : e.name ∈ StdMap.keys r := hms _ (List.contains_iff_mem.1 hin)
      have hacc := (acyclic_wf (ParentStep r) (StdMap.keys r) (by
        rintro a b ⟨-, -, -, p, hp, -⟩
        exact (StdMap.find_isSome r a).1 (by simp [hp])) hac).apply e.name
      obtain ⟨res, h1, h2, -⟩ := rootFrom_spec r e.name hacc
      rw [h1]
      cases res with
      | none =>
        have h3 := h2.1 rfl
        have h4 := (StdMap.find_isSome r e.name).2 hin'
        rw [h3] at h4; simp at h4
      | some root => exact good_pure _
    · rename_i hin
      refine good_bind _ _ ?_ fun x _ => good_bind _ _ (good_members r ms e hk hgk) fun o _ => good_pure _
      rcases tree_cases r e.name with ht | ⟨es, -, ht, -, hkey, hes⟩
      · rw [ht]; exact good_members _ _ _ (by simp [makeEmpty, Elem.kind, Elem.data, Kind.default, Data.kind]) (by simp [children, makeEmpty])
      · rw [ht]
        obtain ⟨t, ht'⟩ := Option.isSome_iff_exists.1 ((StdMap.find_isSome r e.name).2 hkey)
        refine good_members _ _ _ (by simp [makeElement, Elem.kind, Elem.data, Data.kind]) ?_
        intro c hc
        obtain ⟨n, p, hp, rfl⟩ := hes c (by simpa [children, makeElement] using hc)
        exact hgx _ t ht' hin _ (usable_entry n p (hreg n p hp).1)
  -- containers
  have hcont : e.kind ≠ .holder → Good mix (match expandable e with
      | none => undef
      | some false => pure (clone cAll e)
      | some true => (if isReserved e.name then expandMembers r ms e else expandNamed r ms e)) := by
    intro hk
    cases hex : expandable e with
    | none => exact absurd hex (usable_expandable e hu)
    | some b =>
      cases b with
      | false => exact good_pure _
      | true =>
        simp only
        split
        · exact good_members r ms e hk hgk
        · exact hnamed hk
  rw [expand]
  cases hd : e.data <;> simp only
  case null => exact good_pure _
  case holder => exact good_pure _
  case string => split; exact good_pure _; exact hnamed (by simp [Elem.kind, hd, Data.kind])
  case number => split; exact good_pure _; exact hnamed (by simp [Elem.kind, hd, Data.kind])
  case boolean => split; exact good_pure _; exact hnamed (by simp [Elem.kind, hd, Data.kind])
  case array => exact hcont (by simp [Elem.kind, hd, Data.kind])
  case object => exact hcont (by simp [Elem.kind, hd, Data.kind])
  case extend => exact hcont (by simp [Elem.kind, hd, Data.kind])
  case option => exact hcont (by simp [Elem.kind, hd, Data.kind])
  case ref symbol =>
    rw [expandRef]
    generalize (if e.has = true then symbol else []) = sy
    split
    · exact good_pure _
    · split
      · exact good_circular _ (href (by simp [Elem.kind, hd, Data.kind]))
      · rename_i hin
        cases hf : StdMap.find r sy with
        | none => exact good_pure _
        | some t => exact good_bind _ _ (hgx sy t hf hin t (hreg sy t hf).1) fun x _ => good_pure _
  case enum v =>
    split
    · rw [expandEnum]
      refine good_bind _ _ ?_ fun o _ => good_bind _ _ ?_ fun x _ => good_pure _
      · split
        · rename_i hh
          simp only [hd]
          refine good_bind _ _ (good_opt r ms v ?_) fun x _ => good_pure _
          obtain ⟨n, m, a, has, d⟩ := e
          simp only [Elem.has, Elem.data] at hh hd; subst hh hd
          exact hgk
        · exact good_pure _
      · refine good_attributes r ms _ ?_ []
        intro x hx
        have hk : e.kind = .enum := by simp [Elem.kind, hd, Data.kind]
        obtain ⟨h1, h2, -⟩ := henum hk x hx
        refine ⟨h1, h2, fun c hc => (ihs c ?_ hms (hentries hk x hx c hc)).1⟩
        have := attribute_size e x _ hx
        have := child_size x c hc
        omega
    · exact hnamed (by simp [Elem.kind, hd, Data.kind])
  case select es =>
    have hk : e.kind = .select := by simp [Elem.kind, hd, Data.kind]
    cases hex : expandable e with
    | none => exact absurd hex (usable_expandable e hu)
    | some b =>
      cases b with
      | false => exact good_pure _
      | true =>
        simp only
        by_cases hh : e.has = true
        · rw [if_pos hh]
          have hch : children e = es := by
            obtain ⟨n, m, a, has, d⟩ := e
            simp only [Elem.has, Elem.data] at hh hd; subst hh hd; rfl
          rw [hch] at hgk hkids hopts
          refine good_bind _ _ (good_all r ms es hgk) fun xs hxs => ?_
          rw [if_pos ?_]
          · exact good_pure _
          · have key : ∀ (l : List Elem) xs, (∀ c ∈ l, c ∈ es) → Ends (expandAll r ms l) xs → xs.all (fun x => x.kind = .option) = true := by
              intro l
              induction l with
              | nil => intro xs _ h; rw [expandAll, ends_pure] at h; subst h; rfl
              | cons c l ih =>
                intro xs hl h
                rw [expandAll, ends_bind] at h
                obtain ⟨x, hx, h⟩ := h
                rw [ends_bind] at h
                obtain ⟨ys, hy, h⟩ := h
                rw [ends_pure] at h; subst h
                have hc := hl c (by simp)
                obtain ⟨ho, hr⟩ := hopts hk c hc
                have hod : ∃ os, c.data = .option os := by
                  obtain ⟨n, m, a, has, d⟩ := c
                  cases d <;> simp [Elem.kind, Elem.data, Data.kind] at ho ⊢
                obtain ⟨os, hos⟩ := hod
                have := (ihs c (child_size e c (by rw [hch]; exact hc)) hms (hkids c hc)).2 os hos hr x hx
                simp only [List.all_cons, this, decide_true, Bool.true_and]
                exact ih ys (fun d hd => hl d (by simp [hd])) hy
            exact key es xs (fun c hc => hc) hxs
        · exfalso
          rcases hfill (.inl hk) with h | h
          · obtain ⟨n, m, a, has, d⟩ := e
            simp only [Elem.has, Elem.data, Elem.name] at hh hd h
            subst hd
            have : has = false := by simpa using hh
            subst this
            simp [expandable, Data.kind, (isReserved_iff _).2 h, orThen] at hex
          · exact hh h
  case member k v =>
    have hk : e.kind = .member := by simp [Elem.kind, hd, Data.kind]
    cases hex : expandable e with
    | none => exact absurd hex (usable_expandable e hu)
    | some b =>
      cases b with
      | false => exact good_pure _
      | true =>
        simp only
        by_cases hh : e.has = true
        · rw [if_pos hh]
          have hch : children e = k.toList ++ v.toList := by
            obtain ⟨n, m, a, has, d⟩ := e
            simp only [Elem.has, Elem.data] at hh hd; subst hh hd; rfl
          rw [hch] at hgk
          exact good_bind _ _ (good_opt r ms k fun c hc => hgk c (by rw [List.mem_append]; exact .inl hc)) fun _ _ =>
            good_bind _ _ (good_opt r ms v fun c hc => hgk c (by rw [List.mem_append]; exact .inr hc)) fun _ _ => good_pure _
        · exfalso
          rcases hfill (.inr hk) with h | h
          · obtain ⟨n, m, a, has, d⟩ := e
            simp only [Elem.has, Elem.data, Elem.name] at hh hd h
            subst hd
            have : has = false := by simpa using hh
            subst this
            simp [expandable, Data.kind, (isReserved_iff _).2 h, orThen] at hex
          · exact hh h

/-! ## What the results are -/

theorem find_set_self (m : Infos) (k : Bytes) (e : Elem) : Infos.find (Infos.set m k e) k = some e := by
  induction m with
  | nil => simp [Infos.set, Infos.find]
  | cons p r ih =>
    obtain ⟨k', e'⟩ := p
    rw [Infos.set]
    by_cases h : k' = k
    · simp [h, Infos.find]
    · rw [if_neg h]
      simp only [Infos.find, List.find?_cons, h, decide_false] at ih ⊢
      exact ih

theorem all_ends (r : Reg) (ms : List Bytes) (es : List Elem) : ∀ xs, Ends (expandAll r ms es) xs ↔ List.Forall₂ (fun e x => Ends (expand r ms e) x) es xs := by
  induction es with
  | nil => intro xs; rw [expandAll, ends_pure]; simp
  | cons e es ih =>
    intro xs
    rw [expandAll]
    simp only [ends_bind, ends_pure, ih]
    constructor
    · rintro ⟨x, hx, ys, hys, rfl⟩; exact .cons hx hys
    · intro h; cases h with | cons hx hys => exact ⟨_, hx, _, hys, rfl⟩

theorem opt_ends (r : Reg) (ms : List Bytes) (o : Option Elem) (x : Option Elem) (h : Ends (expandOpt r ms o) x) :
    List.Forall₂ (fun e x => Ends (expand r ms e) x) o.toList x.toList := by
  cases o with
  | none => rw [expandOpt, ends_pure] at h; subst h; exact .nil
  | some e =>
    rw [expandOpt] at h
    simp only [ends_bind, ends_pure] at h
    obtain ⟨y, hy, rfl⟩ := h
    exact .cons hy .nil

theorem forall2_right {α β : Type} {R : α → β → Prop} {l : List α} {l' : List β} (h : List.Forall₂ R l l') : ∀ y ∈ l', ∃ x ∈ l, R x y := by
  induction h with
  | nil => simp
  | cons hr _ ih =>
    intro y hy
    rw [List.mem_cons] at hy
    rcases hy with rfl | hy
    · exact ⟨_, by simp, hr⟩
    · obtain ⟨x, hx, h⟩ := ih y hy
      exact ⟨x, by simp [hx], h⟩

theorem pushBack_mem (es : List Elem) (e y : Elem) (h : y ∈ objectPushBack es e) : y ∈ es ∨ y = e := by
  unfold objectPushBack at h
  rw [List.mem_append, List.mem_singleton] at h
  rcases h with h | h
  · left
    split at h
    · exact h
    · split at h
      · split at h
        · exact List.mem_of_mem_eraseIdx h
        · exact h
      · exact h
  · exact .inr h

theorem pushAll_mem (xs : List Elem) : ∀ acc y, y ∈ xs.foldl objectPushBack acc → y ∈ acc ∨ y ∈ xs := by
  induction xs with
  | nil => intro acc y h; exact .inl h
  | cons x xs ih =>
    intro acc y h
    rcases ih _ _ h with h | h
    · rcases pushBack_mem _ _ _ h with h | rfl
      · exact .inl h
      · exact .inr (by simp)
    · exact .inr (by simp [h])

/-- The result of `ExpandMembers`: same kind under its own name, same meta data and attributes, contents expanded. -/
theorem members_ends (r : Reg) (ms : List Bytes) (e x : Elem) (hk : e.kind ≠ .holder) (hm : e.kind ≠ .member) (h : Ends (expandMembers r ms e) x) :
    x.name = e.kind.name ∧ x.kind = e.kind ∧ x.metas = e.metas ∧ x.attributes = e.attributes ∧ x.has = e.has ∧
    (∃ xs, List.Forall₂ (fun c y => Ends (expand r ms c) y) (children e) xs ∧
      children x = (if e.kind = .object then xs.foldl objectPushBack [] else xs)) ∧
    (∀ s, e.data = .ref s → e.has = true → x.data = e.data) := by
  obtain ⟨n, m, a, has, d⟩ := e
  rw [expandMembers] at h
  cases has with
  | false =>
    simp only [Elem.has, Bool.false_eq_true, if_false, ends_pure] at h
    subst h
    refine ⟨rfl, default_kind _, rfl, rfl, rfl, ⟨[], by simp [children], by simp [children]⟩, by simp [Elem.has]⟩
  | true =>
    simp only [Elem.has, if_pos, Elem.data] at h
    cases d <;> simp only [Elem.kind, Elem.data, Data.kind] at h hk hm
    case array es =>
      rw [ends_bind] at h; obtain ⟨xs, hxs, h⟩ := h; rw [ends_pure] at h; subst h
      exact ⟨rfl, rfl, rfl, rfl, rfl, ⟨xs, (all_ends r ms es xs).1 hxs, by simp [Elem.kind, Elem.data, Data.kind, children]⟩, by simp [Elem.data]⟩
    case object es =>
      rw [ends_bind] at h; obtain ⟨xs, hxs, h⟩ := h; rw [ends_pure] at h; subst h
      exact ⟨rfl, rfl, rfl, rfl, rfl, ⟨xs, (all_ends r ms es xs).1 hxs, by simp [Elem.kind, Elem.data, Data.kind, children]⟩, by simp [Elem.data]⟩
    case extend es =>
      rw [ends_bind] at h; obtain ⟨xs, hxs, h⟩ := h; rw [ends_pure] at h; subst h
      exact ⟨rfl, rfl, rfl, rfl, rfl, ⟨xs, (all_ends r ms es xs).1 hxs, by simp [Elem.kind, Elem.data, Data.kind, children]⟩, by simp [Elem.data]⟩
    case option es =>
      rw [ends_bind] at h; obtain ⟨xs, hxs, h⟩ := h; rw [ends_pure] at h; subst h
      exact ⟨rfl, rfl, rfl, rfl, rfl, ⟨xs, (all_ends r ms es xs).1 hxs, by simp [Elem.kind, Elem.data, Data.kind, children]⟩, by simp [Elem.data]⟩
    case select es =>
      rw [ends_bind] at h; obtain ⟨xs, hxs, h⟩ := h; rw [ends_pure] at h; subst h
      exact ⟨rfl, rfl, rfl, rfl, rfl, ⟨xs, (all_ends r ms es xs).1 hxs, by simp [Elem.kind, Elem.data, Data.kind, children]⟩, by simp [Elem.data]⟩
    case enum v =>
      rw [ends_bind] at h; obtain ⟨xs, hxs, h⟩ := h; rw [ends_pure] at h; subst h
      exact ⟨rfl, rfl, rfl, rfl, rfl, ⟨xs.toList, opt_ends r ms v xs hxs, by simp [Elem.kind, Elem.data, Data.kind, children]⟩, by simp [Elem.data]⟩
    case holder => exact absurd rfl hk
    case member => exact absurd rfl hm
    all_goals
      rw [ends_pure] at h; subst h
      exact ⟨rfl, rfl, rfl, rfl, rfl, ⟨[], by simp [children], by simp [children]⟩, by simp [Elem.data]⟩

theorem typeKind_ne {k : Kind} (h : typeKind k) : k ≠ .holder ∧ k ≠ .member ∧ k ≠ .ref ∧ k ≠ .null := by
  cases k <;> simp [typeKind] at h ⊢

theorem members_children (r : Reg) (ms : List Bytes) (e x : Elem) (hk : e.kind ≠ .holder) (hm : e.kind ≠ .member) (h : Ends (expandMembers r ms e) x) :
    ∀ y ∈ children x, ∃ c ∈ children e, Ends (expand r ms c) y := by
  obtain ⟨-, -, -, -, -, ⟨xs, hxs, hx⟩, -⟩ := members_ends r ms e x hk hm h
  intro y hy
  rw [hx] at hy
  refine forall2_right hxs y ?_
  split at hy
  · rcases pushAll_mem _ _ _ hy with h | h
    · simp at h
    · exact h
  · exact hy

theorem resolved_metas (r : Reg) (e : Elem) (m : Infos) (h : Resolved r e) : Resolved r (e.setMetas m) := by
  obtain ⟨n, m', a, has, d⟩ := e
  have hc : children (Elem.mk n m a has d) = children (Elem.mk n m' a has d) := by cases has <;> rfl
  cases h with
  | value _ h name content => exact .value _ h name (by rw [Elem.setMetas, hc]; exact content)
  | member _ h content => exact .member _ h (by rw [Elem.setMetas, hc]; exact content)
  | other _ h => exact .other _ h
  | unknown _ h u => exact .unknown _ h u
  | resolved _ h x hx content => exact .resolved _ h x hx content

theorem not_expandable_resolved (r : Reg) (e : Elem) (h : expandable e = some false) : Resolved r e := by
  suffices ∀ s e, sizeOf e < s → expandable e = some false → Resolved r e from this (sizeOf e + 1) e (by omega) h
  intro s
  induction s with
  | zero => intro e h; omega
  | succ s ih =>
    intro e hs h
    obtain ⟨h1, h2, h3⟩ := not_expandable e h
    have hc : ∀ c ∈ children e, Resolved r c := fun c hc => ih c (by have := child_size e c hc; omega) (h3 c hc)
    cases hk : e.kind
    case ref => exact absurd hk h1
    case member => exact .member e hk hc
    case null => exact .other e (.inl hk)
    case holder => exact .other e (.inr hk)
    all_goals exact .value e (by rw [hk]; trivial) ((isReserved_iff _).1 h2) hc

theorem enumAttributes_fields (r : Reg) (ms : List Bytes) (e x : Elem) (h : Ends (expandEnum r ms e) x) (hk : e.kind = .enum) :
    x.name = str "enum" ∧ x.kind = .enum ∧ x.metas = e.metas ∧ x.has = e.has ∧
    List.Forall₂ (fun c y => Ends (expand r ms c) y) (children e) (children x) ∧
    (∃ attrs, Ends (enumAttributes r ms [] e.attributes) attrs ∧ x.attributes = attrs) := by
  obtain ⟨n, m, a, has, d⟩ := e
  rw [expandEnum, ends_bind] at h
  obtain ⟨o, ho, h⟩ := h
  rw [ends_bind] at h
  obtain ⟨attrs, ha, h⟩ := h
  rw [ends_pure] at h
  subst h
  cases d <;> simp only [Elem.kind, Elem.data, Data.kind, reduceCtorEq] at hk
  rename_i v
  cases has with
  | false =>
    simp only [Elem.has, Bool.false_eq_true, if_false, ends_pure] at ho
    subst ho
    exact ⟨rfl, rfl, rfl, rfl, by simp [children, makeEmpty, Elem.setMetas, Elem.setAttributes], attrs, ha, rfl⟩
  | true =>
    simp only [Elem.has, if_pos, Elem.data] at ho
    rw [ends_bind] at ho
    obtain ⟨v', hv, ho⟩ := ho
    rw [ends_pure] at ho
    subst ho
    exact ⟨rfl, rfl, rfl, rfl, opt_ends r ms v v' hv, attrs, ha, rfl⟩

/-- The result of expanding a named type. -/
theorem named_ends (r : Reg) (ms : List Bytes) (e x : Elem) (hk : typeKind e.kind) (hin : ¬ ms.contains e.name = true) (h : Ends (expandNamed r ms e) x) :
    ∃ t o ys, Ends (expandMembers r (e.name :: ms) (inheritanceTree r e.name)) t ∧ Ends (expandMembers r ms e) o ∧
      children t = ys ∧
      x = .mk (str "extend") (copyMetaId [] e.metas) [] true (.extend (ys ++ [o.setMetas (Infos.erase o.metas (str "id"))])) := by
  rw [expandNamed, if_neg hin, ends_bind] at h
  obtain ⟨t, ht, h⟩ := h
  rw [ends_bind] at h
  obtain ⟨o, ho, h⟩ := h
  rw [ends_pure] at h
  refine ⟨t, o, _, ht, ho, rfl, ?_⟩
  have htree : (inheritanceTree r e.name).kind = .extend ∧ (inheritanceTree r e.name).metas = [] ∧ (inheritanceTree r e.name).attributes = [] := by
    rcases tree_cases r e.name with h | ⟨es, -, h, -⟩ <;> rw [h] <;> exact ⟨rfl, rfl, rfl⟩
  obtain ⟨k1, k2, k3, k4, k5, -, -⟩ := members_ends r _ _ t (by rw [htree.1]; simp) (by rw [htree.1]; simp) ht
  obtain ⟨n, m, a, has, d⟩ := t
  rw [htree.2.1] at k3; rw [htree.2.2] at k4
  change m = [] at k3; change a = [] at k4; change n = _ at k1
  subst k3 k4
  have hkt : d.kind = .extend := k2.trans htree.1
  have hn : n = str "extend" := by rw [k1]; show (inheritanceTree r e.name).kind.name = _; rw [htree.1]; rfl
  subst hn
  cases d <;> simp only [Data.kind, reduceCtorEq] at hkt
  rename_i es
  have hes : has = false → es = [] := by
    intro hf
    subst hf
    rcases tree_cases r e.name with hh | ⟨es', -, hh, -⟩
    · rw [hh, expandMembers] at ht
      simp only [makeEmpty, Elem.has, Bool.false_eq_true, if_false, ends_pure, Elem.kind, Elem.data, Data.kind, Kind.default, Elem.mk.injEq, Data.extend.injEq] at ht
      exact ht.2.2.2.2
    · rw [hh] at k5; simp [makeElement, Elem.has] at k5
  subst h
  simp only [Elem.setMetas, Elem.setData, extendContent, Elem.data, Elem.metas]
  cases has with
  | true => rfl
  | false => rw [hes rfl]; rfl

/-- After the expansion nothing refers to a named type that can be looked up. -/
theorem expand_resolved (r : Reg) : ∀ ms e x, Ends (expand r ms e) x → Resolved r x := by
  have key : ∀ ms e, ∀ x, Ends (expand r ms e) x → Resolved r x := by
    refine expand_ind r _ fun ms e ihs ihm x hx => ?_
    have hkids : ∀ c ∈ children e, ∀ y, Ends (expand r ms c) y → Resolved r y := fun c hc y hy => ihs c (child_size e c hc) y hy
    have hmem : typeKind e.kind → ∀ o, Ends (expandMembers r ms e) o → Resolved r o := by
      intro hk o ho
      obtain ⟨h1, h2, h3, -⟩ := typeKind_ne hk
      obtain ⟨k1, k2, -⟩ := members_ends r ms e o h1 h2 ho
      refine .value o (by rw [k2]; exact hk) (by rw [k1]; exact kindName_reserved _ h1) ?_
      intro y hy
      obtain ⟨c, hc, hce⟩ := members_children r ms e o h1 h2 ho y hy
      exact hkids c hc y hce
    have hnamed : typeKind e.kind → ∀ o, Ends (expandNamed r ms e) o → Resolved r o := by
      intro hk o ho
      by_cases hin : ms.contains e.name = true
      · rw [expandNamed, if_pos hin] at ho
        cases hroot : rootFrom r e.name with
        | none => simp [hroot] at ho
        | some q =>
          cases q with
          | none => simp [hroot] at ho
          | some root =>
            simp only [hroot, ends_pure] at ho
            subst ho
            have hck : (cycleEntry e.name root).kind = root.kind := default_kind _
            have hcn : (cycleEntry e.name root).name = root.kind.name := rfl
            have hch : (cycleEntry e.name root).has = false := rfl
            have hcc : children (cycleEntry e.name root) = [] := rfl
            cases hrk : root.kind
            case ref => exact .unknown _ (hck.trans hrk) (.inl hch)
            case member => exact .member _ (hck.trans hrk) (by simp [hcc])
            case null => exact .other _ (.inl (hck.trans hrk))
            case holder => exact .other _ (.inr (hck.trans hrk))
            all_goals exact .value _ (by rw [hck, hrk]; trivial) (by rw [hcn]; exact kindName_reserved _ (by rw [hrk]; simp)) (by simp [hcc])
      · obtain ⟨t, o', ys, ht, ho', hys, rfl⟩ := named_ends r ms e o hk hin ho
        refine .value _ trivial (by rw [← isReserved_iff]; rfl) ?_
        intro y hy
        simp only [children, List.mem_append, List.mem_singleton] at hy
        rcases hy with hy | rfl
        · rw [← hys] at hy
          have htk : (inheritanceTree r e.name).kind = .extend := by
            rcases tree_cases r e.name with h | ⟨es, -, h, -⟩ <;> rw [h] <;> rfl
          obtain ⟨c, hc, hce⟩ := members_children r _ _ t (by rw [htk]; simp) (by rw [htk]; simp) ht y hy
          rcases tree_cases r e.name with h | ⟨es, -, h, -, hkey, -⟩
          · rw [h] at hc; simp [children, makeEmpty] at hc
          · exact ihm _ c (missing_push r ms e.name hkey hin) y hce
        · exact resolved_metas _ _ _ (hmem hk o' ho')
    have hcont : typeKind e.kind → Ends (match expandable e with
        | none => undef
        | some false => pure (clone cAll e)
        | some true => (if isReserved e.name then expandMembers r ms e else expandNamed r ms e)) x → Resolved r x := by
      intro hk h
      cases hex : expandable e with
      | none => simp [hex] at h
      | some b =>
        cases b with
        | false => simp only [hex, ends_pure, clone_cAll] at h; subst h; exact not_expandable_resolved r x hex
        | true =>
          simp only [hex] at h
          split at h
          · exact hmem hk x h
          · exact hnamed hk x h
    have hscal : typeKind e.kind → children e = [] → Ends (if isReserved e.name then pure (clone cAll e) else expandNamed r ms e) x → Resolved r x := by
      intro hk hc h
      split at h
      · rename_i hn
        rw [ends_pure, clone_cAll] at h; subst h
        exact .value x hk ((isReserved_iff _).1 hn) (by simp [hc])
      · exact hnamed hk x h
    have hleaf : (∃ s, e.data = .string s) ∨ (∃ s, e.data = .number s) ∨ (∃ s, e.data = .boolean s) → children e = [] := by
      obtain ⟨n, m, a, has, d⟩ := e
      rintro (⟨s, hs⟩ | ⟨s, hs⟩ | ⟨s, hs⟩) <;> simp only [Elem.data] at hs <;> subst hs <;> cases has <;> rfl
    rw [expand] at hx
    cases hd : e.data <;> simp only [hd] at hx
    case null => rw [ends_pure, clone_cAll] at hx; subst hx; exact .other _ (.inl (by simp [Elem.kind, hd, Data.kind]))
    case holder => rw [ends_pure, clone_cAll] at hx; subst hx; exact .other _ (.inr (by simp [Elem.kind, hd, Data.kind]))
    case string => exact hscal (by simp [Elem.kind, hd, Data.kind, typeKind]) (hleaf (by simp [hd])) hx
    case number => exact hscal (by simp [Elem.kind, hd, Data.kind, typeKind]) (hleaf (by simp [hd])) hx
    case boolean => exact hscal (by simp [Elem.kind, hd, Data.kind, typeKind]) (hleaf (by simp [hd])) hx
    case array => exact hcont (by simp [Elem.kind, hd, Data.kind, typeKind]) hx
    case object => exact hcont (by simp [Elem.kind, hd, Data.kind, typeKind]) hx
    case extend => exact hcont (by simp [Elem.kind, hd, Data.kind, typeKind]) hx
    case option => exact hcont (by simp [Elem.kind, hd, Data.kind, typeKind]) hx
    case ref symbol =>
      have hk : e.kind = .ref := by simp [Elem.kind, hd, Data.kind]
      rw [expandRef] at hx
      by_cases hh : e.has = true
      · simp only [if_pos hh] at hx
        split at hx
        · rename_i hs
          rw [ends_pure, clone_cAll] at hx; subst hx
          exact .unknown _ hk (.inr ⟨symbol, hd, .inl hs⟩)
        · split at hx
          · simp at hx
          · rename_i hin
            cases hf : StdMap.find r symbol with
            | none =>
              simp only [hf, ends_pure, clone_cAll] at hx; subst hx
              exact .unknown _ hk (.inr ⟨symbol, hd, .inr hf⟩)
            | some t =>
              simp only [hf, ends_bind, ends_pure, clone_cAll] at hx
              obtain ⟨y, hy, rfl⟩ := hx
              have hry := ihm (symbol :: ms) t (missing_push r ms symbol ((StdMap.find_isSome r symbol).1 (by simp [hf])) hin) y hy
              obtain ⟨n, m, a, has, d⟩ := e
              refine .resolved _ hk _ ?_ (resolved_metas r y (metaIdToRef y.metas) hry)
              simp only [Elem.setAttributes, Elem.attributes]
              exact find_set_self _ _ _
      · simp only [if_neg hh, if_pos, ends_pure, clone_cAll] at hx
        subst hx
        exact .unknown _ hk (.inl (by simpa using hh))
    case enum v =>
      have hk : e.kind = .enum := by simp [Elem.kind, hd, Data.kind]
      split at hx
      · obtain ⟨h1, h2, -, -, h5, -⟩ := enumAttributes_fields r ms e x hx hk
        refine .value x (by rw [h2]; trivial) (by rw [h1, ← isReserved_iff]; rfl) ?_
        intro y hy
        obtain ⟨c, hc, hce⟩ := forall2_right h5 y hy
        exact hkids c hc y hce
      · exact hnamed (by rw [hk]; trivial) x hx
    case select es =>
      have hk : e.kind = .select := by simp [Elem.kind, hd, Data.kind]
      cases hex : expandable e with
      | none => simp [hex] at hx
      | some b =>
        cases b with
        | false => simp only [hex, ends_pure, clone_cAll] at hx; subst hx; exact not_expandable_resolved r x hex
        | true =>
          simp only [hex] at hx
          split at hx
          · rename_i hh
            rw [ends_bind] at hx
            obtain ⟨xs, hxs, hx⟩ := hx
            split at hx
            · rw [ends_pure] at hx
              subst hx
              refine .value _ trivial (by rw [← isReserved_iff]; rfl) ?_
              intro y hy
              obtain ⟨c, hc, hce⟩ := forall2_right ((all_ends r ms es xs).1 hxs) y (by simpa [children, makeElement, Elem.setMetas] using hy)
              refine hkids c ?_ y hce
              obtain ⟨n, m, a, has, d⟩ := e
              simp only [Elem.has, Elem.data] at hh hd; subst hh hd; exact hc
            · simp at hx
          · simp at hx
    case member k v =>
      have hk : e.kind = .member := by simp [Elem.kind, hd, Data.kind]
      cases hex : expandable e with
      | none => simp [hex] at hx
      | some b =>
        cases b with
        | false => simp only [hex, ends_pure, clone_cAll] at hx; subst hx; exact not_expandable_resolved r x hex
        | true =>
          simp only [hex] at hx
          split at hx
          · rename_i hh
            simp only [ends_bind, ends_pure] at hx
            obtain ⟨k', hk', v', hv', rfl⟩ := hx
            refine .member _ rfl ?_
            intro y hy
            simp only [clone, Elem.setData, children, List.mem_append] at hy
            have hch : children e = k.toList ++ v.toList := by
              obtain ⟨n, m, a, has, d⟩ := e
              simp only [Elem.has, Elem.data] at hh hd; subst hh hd; rfl
            rcases hy with hy | hy
            · obtain ⟨c, hc, hce⟩ := forall2_right (opt_ends r ms k k' hk') y hy
              exact hkids c (by rw [hch, List.mem_append]; exact .inl hc) y hce
            · obtain ⟨c, hc, hce⟩ := forall2_right (opt_ends r ms v v' hv') y hy
              exact hkids c (by rw [hch, List.mem_append]; exact .inr hc) y hce
          · simp at hx
  exact key

/-! ## Elements without named types -/

theorem plain_expandable (e : Elem) (h : Plain e) : expandable e = some false := by
  suffices ∀ s e, sizeOf e < s → (Plain e ∨ (e.kind = .array ∧ isReserved e.name = true ∧ ∀ c ∈ children e, Plain c)) → expandable e = some false from
    this (sizeOf e + 1) e (by omega) (.inl h)
  intro s
  induction s with
  | zero => intro e h; omega
  | succ s ih =>
    intro e hs hp
    have hkids : ∀ c ∈ children e, expandable c = some false := by
      intro c hc
      refine ih c (by have := child_size e c hc; omega) (.inl ?_)
      rcases hp with hp | hp
      · cases hp with | mk _ _ _ h => exact h c hc
      · exact hp.2.2 c hc
    have hn : isReserved e.name = true := by
      rcases hp with hp | hp
      · cases hp with | mk _ h => exact (isReserved_iff _).2 h
      · exact hp.2.1
    have hr : e.kind ≠ .ref := by
      rcases hp with hp | hp
      · cases hp with | mk _ _ h => exact h
      · rw [hp.1]; simp
    have hv : e.kind = .enum → e.has = true → e.data ≠ .enum none := by
      rcases hp with hp | hp
      · intro hk hh; cases hp with | mk _ _ _ _ h => have := h hk; rw [if_pos hh] at this; exact this
      · intro hk; rw [hp.1] at hk; simp at hk
    have hent : e.kind = .enum → ∀ x, (str "enumerations", x) ∈ e.attributes → expandable x = some false := by
      intro hk x hx
      rcases hp with hp | hp
      · cases hp with
        | mk _ _ _ _ _ _ henums hentries =>
          obtain ⟨es, rfl⟩ := henums hk x hx
          exact ih _ (by have := attribute_size e _ _ hx; omega) (.inr ⟨rfl, rfl, hentries hk _ hx⟩)
      · rw [hp.1] at hk; simp at hk
    obtain ⟨n, m, a, has, d⟩ := e
    rw [expandable]
    change d.kind ≠ .ref at hr
    rw [if_neg hr]
    simp only [Elem.name] at hn
    simp only [hn, Bool.not_true, Bool.false_eq_true, if_false]
    rw [orThen_false]
    constructor
    · cases has with
      | false => simp
      | true =>
        simp only [if_pos]
        cases d <;> simp only [children, expandableD] at hkids ⊢
        case array => exact (expandableL_false _).2 hkids
        case object => exact (expandableL_false _).2 hkids
        case extend => exact (expandableL_false _).2 hkids
        case option => exact (expandableL_false _).2 hkids
        case select => exact (expandableL_false _).2 hkids
        case ref => exact absurd rfl hr
        case enum v =>
          cases v with
          | none => exact absurd rfl (hv rfl rfl)
          | some x => exact hkids x (by simp)
        case member k v =>
          rw [orThen_false]
          constructor
          · cases k with
            | none => rfl
            | some x => exact hkids x (by simp)
          · cases v with
            | none => rfl
            | some x => exact hkids x (by simp)
    · split
      · rename_i hk
        rcases expandableE_cases a with ⟨h1, -⟩ | ⟨x, hx, h2⟩
        · exact h1
        · rw [h2]; exact hent hk x hx
      · rfl

theorem set_new (m : Infos) (k : Bytes) (v : Elem) (h : k ∉ m.map (·.1)) : Infos.set m k v = m ++ [(k, v)] := by
  induction m with
  | nil => rfl
  | cons p r ih =>
    obtain ⟨k', e'⟩ := p
    simp only [List.map_cons, List.mem_cons, not_or] at h
    rw [Infos.set, if_neg (fun e => h.1 e.symm), ih h.2]
    rfl

theorem all_same (r : Reg) (ms : List Bytes) (es : List Elem) (h : ∀ e ∈ es, Ends (expand r ms e) e) : Ends (expandAll r ms es) es := by
  rw [all_ends]
  induction es with
  | nil => exact .nil
  | cons e es ih => exact .cons (h e (by simp)) (ih fun c hc => h c (by simp [hc]))

theorem attributes_same (r : Reg) (ms : List Bytes) (attrs : Infos) : ∀ acc : Infos, ((acc ++ attrs).map (·.1)).Nodup →
    (∀ x, (str "enumerations", x) ∈ attrs → ∃ es, x = .mk (str "array") [] [] true (.array es) ∧ ∀ c ∈ es, Ends (expand r ms c) c) →
    Ends (enumAttributes r ms acc attrs) (acc ++ attrs) := by
  induction attrs with
  | nil => intro acc _ _; rw [enumAttributes, ends_pure]; simp
  | cons p rest ih =>
    intro acc hnd h
    obtain ⟨k, v⟩ := p
    have hk : k ∉ acc.map (·.1) := by
      rw [List.map_append, List.nodup_append] at hnd
      intro hin
      exact hnd.2.2 k hin k (by simp) rfl
    have hnd' : (((acc ++ [(k, v)]) ++ rest).map (·.1)).Nodup := by simpa using hnd
    have ih' := ih (acc ++ [(k, v)]) hnd' fun x hx => h x (by simp [hx])
    have he : acc ++ [(k, v)] ++ rest = acc ++ (k, v) :: rest := by simp
    rw [he] at ih'
    rw [enumAttributes]
    split
    · rename_i hke
      subst hke
      obtain ⟨es, rfl, hes⟩ := h v (by simp)
      simp only [Elem.data, Elem.has, if_pos]
      rw [ends_bind]
      refine ⟨es, all_same r ms es hes, ?_⟩
      rw [show makeElement (.array es) = .mk (str "array") [] [] true (.array es) from rfl, set_new _ _ _ hk]
      exact ih'
    · rw [clone_cAll, set_new _ _ _ hk]
      exact ih'

theorem plain_same (r : Reg) (ms : List Bytes) (e : Elem) (h : Plain e) : Ends (expand r ms e) e := by
  suffices ∀ s e, sizeOf e < s → Plain e → Ends (expand r ms e) e from this (sizeOf e + 1) e (by omega) h
  intro s
  induction s with
  | zero => intro e h; omega
  | succ s ih =>
    intro e hs hp
    have hex := plain_expandable e hp
    have hp' := hp
    cases hp with
    | mk _ hname href hkids hvalue hbase henums hentries =>
      have hn := (isReserved_iff _).2 hname
      rw [expand]
      cases hd : e.data <;> simp only [hex]
      case ref => exact absurd (by simp [Elem.kind, hd, Data.kind]) href
      case enum v =>
        have hk : e.kind = .enum := by simp [Elem.kind, hd, Data.kind]
        rw [if_pos hn, expandEnum, ends_bind]
        have hattr : Ends (enumAttributes r ms [] e.attributes) e.attributes := by
          refine attributes_same r ms e.attributes [] (by simpa using (hbase hk).2) ?_
          intro x hx
          obtain ⟨es, rfl⟩ := henums hk x hx
          refine ⟨es, rfl, fun c hc => ih c ?_ (hentries hk _ hx c hc)⟩
          have h1 := attribute_size e _ _ hx
          have h2 := child_size (.mk (str "array") [] [] true (.array es)) c hc
          omega
        have hv := hvalue hk
        have hnm := (hbase hk).1
        obtain ⟨n, m, a, has, d⟩ := e
        simp only [Elem.data] at hd
        subst hd
        cases has with
        | false =>
          simp only [Elem.has, Bool.false_eq_true, if_false, Elem.data, Data.enum.injEq] at hv
          subst hv
          refine ⟨makeEmpty .enum, by simp only [Elem.has, Bool.false_eq_true, if_false, ends_pure], ?_⟩
          rw [ends_bind]
          refine ⟨a, hattr, ?_⟩
          rw [ends_pure]
          simp only [Elem.name] at hnm
          subst hnm
          rfl
        | true =>
          simp only [Elem.has, if_pos, Elem.data, ne_eq, Data.enum.injEq] at hv
          refine ⟨makeElement (.enum v), ?_, ?_⟩
          · simp only [Elem.has, if_pos, Elem.data]
            cases v with
            | none => simp at hv
            | some c =>
              rw [ends_bind]
              refine ⟨some c, ?_, by rw [ends_pure]⟩
              rw [expandOpt, ends_bind]
              refine ⟨c, ih c ?_ (hkids c (by simp [children])), by rw [ends_pure]⟩
              have := child_size (.mk n m a true (.enum (some c))) c (by simp [children])
              omega
          · rw [ends_bind]
            refine ⟨a, hattr, ?_⟩
            rw [ends_pure]
            simp only [Elem.name] at hnm
            subst hnm
            rfl
      all_goals simp only [hn, if_pos, ends_pure, clone_cAll]

/-! ## Lineages -/

theorem lineage_unique (r : Reg) (n : Bytes) (l : List Bytes) (h : Lineage r n l) : ∀ l', Lineage r n l' → l = l' := by
  induction h with
  | done n hn =>
    intro l' h'
    cases h' with
    | done => rfl
    | up _ p l hp hr _ => rcases hn with hn | hn; exact absurd hn hr; rw [hn] at hp; simp at hp
  | up n p l hp hr _ ih =>
    intro l' h'
    cases h' with
    | done _ hn => rcases hn with hn | hn; exact absurd hn hr; rw [hn] at hp; simp at hp
    | up _ p' l'' hp' _ hl' => rw [hp] at hp'; cases hp'; rw [ih _ hl']

theorem lineage_suffix (r : Reg) (n : Bytes) (l : List Bytes) (h : Lineage r n l) : ∀ k ∈ l, ∃ l', Lineage r k l' ∧ l'.length ≤ l.length := by
  induction h with
  | done => simp
  | up n p l hp hr hl ih =>
    intro k hk
    rw [List.mem_cons] at hk
    rcases hk with rfl | hk
    · exact ⟨_, .up _ p l hp hr hl, Nat.le_refl _⟩
    · obtain ⟨l', h1, h2⟩ := ih k hk
      exact ⟨l', h1, by simp; omega⟩

theorem lineage_nodup (r : Reg) (n : Bytes) (l : List Bytes) (h : Lineage r n l) : l.Nodup := by
  induction h with
  | done => exact List.nodup_nil
  | up n p l hp hr hl ih =>
    rw [List.nodup_cons]
    refine ⟨fun hin => ?_, ih⟩
    obtain ⟨l', h1, h2⟩ := lineage_suffix r _ _ hl n hin
    have := lineage_unique r n _ h1 _ (.up n p l hp hr hl)
    rw [this] at h2; simp at h2; omega

/-- The loop gives the entries of the lineage. -/
theorem lineage_spec (r : Reg) (n : Bytes) (l : List Bytes) (h : Lineage r n l) : ∀ seen : List Bytes, (∀ s ∈ seen, s ∉ l) →
    ∃ es, lineage r seen n = some es ∧ List.Forall₂ (fun k e => ∃ p, StdMap.find r k = some p ∧ e = treeEntry k p) l es := by
  induction h with
  | done n hn =>
    intro seen _
    refine ⟨[], ?_, .nil⟩
    rw [lineage]
    split
    · rfl
    · rename_i p hp
      rcases hn with hn | hn
      · rw [if_pos ((isReserved_iff _).2 hn)]
      · rw [hn] at hp; simp at hp
  | up n p l hp hr hl ih =>
    intro seen hs
    have hnd := lineage_nodup r n _ (.up n p l hp hr hl)
    rw [List.nodup_cons] at hnd
    obtain ⟨es, he, hf⟩ := ih (n :: seen) (by
      intro s hs'
      rw [List.mem_cons] at hs'
      rcases hs' with rfl | hs'
      · exact hnd.1
      · exact fun h => hs s hs' (by simp [h]))
    refine ⟨treeEntry n p :: es, ?_, .cons ⟨p, hp, rfl⟩ hf⟩
    rw [lineage]
    split
    · rename_i h; rw [h] at hp; simp at hp
    · rename_i q hq
      rw [hq] at hp
      cases hp
      rw [if_neg (fun h => hr ((isReserved_iff _).1 h))]
      rw [dif_neg (fun h => hs n (List.contains_iff_mem.1 h) (by simp)), he]
      rfl

/-- If the loop gives entries, there is a lineage. -/
theorem lineage_exists (r : Reg) (es : List Elem) : ∀ seen n, lineage r seen n = some es → ∃ l, Lineage r n l := by
  induction es with
  | nil =>
    intro seen n h
    rw [lineage] at h
    split at h
    · rename_i hn; exact ⟨[], .done n (.inr hn)⟩
    · split at h
      · rename_i hr; exact ⟨[], .done n (.inl ((isReserved_iff _).1 hr))⟩
      · split at h
        · simp at h
        · simp at h
  | cons e es ih =>
    intro seen n h
    obtain ⟨p, hp, hr, -, hl⟩ := lineage_cons r seen n e es h
    obtain ⟨l, hl'⟩ := ih _ _ hl
    exact ⟨n :: l, .up n p l hp hr hl'⟩

/-- Expanding the copy of a registered element keeps its kind and meta data. -/
theorem entry_ends (r : Reg) (ms : List Bytes) (e x : Elem) (hn : e.kind ≠ .holder → reserved e.name) (h : Ends (expand r ms e) x) :
    x.kind = e.kind ∧ x.metas = e.metas ∧ x.has = e.has := by
  rw [expand] at h
  have hcont : e.kind ≠ .holder → e.kind ≠ .member → Ends (match expandable e with
      | none => undef
      | some false => pure (clone cAll e)
      | some true => (if isReserved e.name then expandMembers r ms e else expandNamed r ms e)) x → x.kind = e.kind ∧ x.metas = e.metas ∧ x.has = e.has := by
    intro hk hm h
    cases hex : expandable e with
    | none => simp [hex] at h
    | some b =>
      cases b with
      | false => simp only [hex, ends_pure, clone_cAll] at h; subst h; exact ⟨rfl, rfl, rfl⟩
      | true =>
        simp only [hex, (isReserved_iff _).2 (hn hk), if_pos] at h
        obtain ⟨-, h1, h2, -, h3, -⟩ := members_ends r ms e x hk hm h
        exact ⟨h1, h2, h3⟩
  cases hd : e.data <;> simp only [hd] at h
  case null => rw [ends_pure, clone_cAll] at h; subst h; exact ⟨rfl, rfl, rfl⟩
  case holder => rw [ends_pure, clone_cAll] at h; subst h; exact ⟨rfl, rfl, rfl⟩
  case string => rw [if_pos ((isReserved_iff _).2 (hn (by simp [Elem.kind, hd, Data.kind]))), ends_pure, clone_cAll] at h; subst h; exact ⟨rfl, rfl, rfl⟩
  case number => rw [if_pos ((isReserved_iff _).2 (hn (by simp [Elem.kind, hd, Data.kind]))), ends_pure, clone_cAll] at h; subst h; exact ⟨rfl, rfl, rfl⟩
  case boolean => rw [if_pos ((isReserved_iff _).2 (hn (by simp [Elem.kind, hd, Data.kind]))), ends_pure, clone_cAll] at h; subst h; exact ⟨rfl, rfl, rfl⟩
  case array => exact hcont (by simp [Elem.kind, hd, Data.kind]) (by simp [Elem.kind, hd, Data.kind]) h
  case object => exact hcont (by simp [Elem.kind, hd, Data.kind]) (by simp [Elem.kind, hd, Data.kind]) h
  case extend => exact hcont (by simp [Elem.kind, hd, Data.kind]) (by simp [Elem.kind, hd, Data.kind]) h
  case option => exact hcont (by simp [Elem.kind, hd, Data.kind]) (by simp [Elem.kind, hd, Data.kind]) h
  case ref s =>
    rw [expandRef] at h
    generalize (if e.has = true then s else []) = sy at h
    split at h
    · rw [ends_pure, clone_cAll] at h; subst h; exact ⟨rfl, rfl, rfl⟩
    · split at h
      · simp at h
      · split at h
        · rw [ends_pure, clone_cAll] at h; subst h; exact ⟨rfl, rfl, rfl⟩
        · simp only [ends_bind, ends_pure, clone_cAll] at h
          obtain ⟨y, -, rfl⟩ := h
          obtain ⟨n, m, a, has, d⟩ := e
          exact ⟨rfl, rfl, rfl⟩
  case enum v =>
    have hk : e.kind = .enum := by simp [Elem.kind, hd, Data.kind]
    rw [if_pos ((isReserved_iff _).2 (hn (by rw [hk]; simp)))] at h
    obtain ⟨-, h1, h2, h3, -⟩ := enumAttributes_fields r ms e x h hk
    exact ⟨h1.trans hk.symm, h2, h3⟩
  case select es =>
    have hk : e.kind = .select := by simp [Elem.kind, hd, Data.kind]
    cases hex : expandable e with
    | none => simp [hex] at h
    | some b =>
      cases b with
      | false => simp only [hex, ends_pure, clone_cAll] at h; subst h; exact ⟨rfl, rfl, rfl⟩
      | true =>
        simp only [hex] at h
        split at h
        · rename_i hh
          rw [ends_bind] at h
          obtain ⟨xs, -, h⟩ := h
          split at h
          · rw [ends_pure] at h; subst h
            exact ⟨hk.symm ▸ rfl, rfl, hh.symm ▸ rfl⟩
          · simp at h
        · simp at h
  case member k v =>
    have hk : e.kind = .member := by simp [Elem.kind, hd, Data.kind]
    cases hex : expandable e with
    | none => simp [hex] at h
    | some b =>
      cases b with
      | false => simp only [hex, ends_pure, clone_cAll] at h; subst h; exact ⟨rfl, rfl, rfl⟩
      | true =>
        simp only [hex] at h
        split at h
        · rename_i hh
          simp only [ends_bind, ends_pure] at h
          obtain ⟨k', -, v', -, rfl⟩ := h
          exact ⟨hk.symm ▸ rfl, cloneInfos_id _, hh.symm ▸ rfl⟩
        · simp at h

end Verif.Expand
