import Verif.Spec.Api
import Verif.Props.C11
import Verif.Props.C12_C13
import Verif.Proof.Element
namespace Verif.Api
open Verif Verif.Spec Verif.Refract Verif.ByteBuffer Verif.Lines Verif.Props

/-! ## Warnings -/

theorem equalEntries_iff : ∀ (a b : List Range), a.length = b.length → (equalEntries a b = true ↔ a = b)
  | [], [], _ => by simp [equalEntries]
  | x :: a, y :: b, h => by
    have ih := equalEntries_iff a b (by simpa using h)
    obtain ⟨xl, xn⟩ := x; obtain ⟨yl, yn⟩ := y
    simp only [equalEntries, Bool.and_eq_true, Bool.not_eq_true', Bool.or_eq_false_iff, bne_eq_false_iff_eq, ih, List.cons.injEq, Range.mk.injEq]
    constructor
    · rintro ⟨⟨h1, h2⟩, h3⟩; exact ⟨⟨h2, h1⟩, h3⟩
    · rintro ⟨⟨h1, h2⟩, h3⟩; exact ⟨⟨h2, h1⟩, h3⟩

theorem sameWarning_iff (a b : Annotation) : sameWarning a b = true ↔ a = b := by
  obtain ⟨al, ac, am⟩ := a; obtain ⟨bl, bc, bm⟩ := b
  simp only [sameWarning, Bool.and_eq_true, beq_iff_eq, Annotation.mk.injEq]
  by_cases h : al.length = bl.length
  · rw [if_pos h, equalEntries_iff al bl h]; exact ⟨fun ⟨⟨h1, h2⟩, h3⟩ => ⟨h1, h2, h3⟩, fun ⟨h1, h2, h3⟩ => ⟨⟨h1, h2⟩, h3⟩⟩
  · rw [if_neg h]
    constructor
    · rintro ⟨⟨h1, -⟩, -⟩; simp at h1
    · rintro ⟨h1, -⟩; exact absurd (by rw [h1]) h

theorem warn_eq (ws : List Annotation) (w : Annotation) : warn ws w = if w ∈ ws then ws else ws ++ [w] := by
  unfold warn
  have : (ws.any fun item => sameWarning item w) = true ↔ w ∈ ws := by
    simp only [List.any_eq_true, sameWarning_iff]
    exact ⟨fun ⟨x, h, e⟩ => e ▸ h, fun h => ⟨w, h, rfl⟩⟩
  by_cases h : w ∈ ws
  · rw [if_pos h, if_pos (this.2 h)]
  · rw [if_neg h, if_neg (fun h' => h (this.1 h'))]

theorem warn_first (calls : List Annotation) : FirstOccurrences calls (calls.foldl warn []) := by
  suffices ∀ (more done : List Annotation) (ws : List Annotation), FirstOccurrences done ws → FirstOccurrences (done ++ more) (more.foldl warn ws) by
    simpa using this calls [] [] ⟨by simp, by simp, by simp⟩
  intro more
  induction more with
  | nil => intro done ws h; simpa using h
  | cons w more ih =>
    intro done ws h
    rw [List.foldl_cons]
    have : done ++ w :: more = (done ++ [w]) ++ more := by simp
    rw [this]
    apply ih
    obtain ⟨h1, h2, h3⟩ := h
    have hidx : ∀ a ∈ done, (done ++ [w]).idxOf a = done.idxOf a := fun a ha => List.idxOf_append_of_mem ha
    rw [warn_eq]
    by_cases hw : w ∈ ws
    · rw [if_pos hw]
      refine ⟨h1, fun x => ?_, ?_⟩
      · rw [h2 x]; simp only [List.mem_append, List.mem_singleton]
        exact ⟨.inl, fun h => h.elim id (fun h => h ▸ (h2 w).1 hw)⟩
      · refine h3.imp_of_mem ?_
        intro a b ha hb hab
        rw [hidx a ((h2 a).1 ha), hidx b ((h2 b).1 hb)]; exact hab
    · rw [if_neg hw]
      have hwd : w ∉ done := fun h => hw ((h2 w).2 h)
      refine ⟨?_, fun x => ?_, ?_⟩
      · rw [List.nodup_append]
        exact ⟨h1, by simp, fun a ha b hb e => by simp at hb; subst hb; exact hw (e ▸ ha)⟩
      · simp only [List.mem_append, h2 x]
      · rw [List.pairwise_append]
        refine ⟨?_, by simp, ?_⟩
        · refine h3.imp_of_mem ?_
          intro a b ha hb hab
          rw [hidx a ((h2 a).1 ha), hidx b ((h2 b).1 hb)]; exact hab
        · intro a ha b hb
          simp at hb; subst hb
          rw [hidx a ((h2 a).1 ha), List.idxOf_append_of_notMem hwd]
          have := List.idxOf_lt_length_iff.2 ((h2 a).1 ha)
          simp; omega

/-! ## Annotation elements -/

theorem lines_total (src : Bytes) (loc len : Nat) (h : 0 < loc + len) : ∃ p, getLineFromMap (linesEndIndex src) loc len = some p := by
  have hs := Utf8.decodeAll_scalar src
  have : linesEndIndex src = linesEndIndex (utf8s (Utf8.decodeAll src)) := by
    rw [linesEndIndex_text _ hs]; rfl
  rw [this]
  obtain ⟨p, hp, -⟩ := C11_end_line (Utf8.decodeAll src) hs loc len h
  exact ⟨p, hp⟩

theorem range_shown (lines : List Nat) (r : Range) (e : Elem) (h : rangeToRefract lines r = some e) : shownRange e = some (dec r.location, dec r.length) := by
  unfold rangeToRefract at h
  cases hg : getLineFromMap lines r.location r.length with
  | none => rw [hg] at h; simp at h
  | some p => rw [hg] at h; simp only [Option.map_some, Option.some.injEq] at h; subst h; rfl

theorem ranges_shown (lines : List Nat) : ∀ (rs : List Range) (l : List Elem), rs.mapM (rangeToRefract lines) = some l →
    l.mapM shownRange = some (rs.map fun r => (dec r.location, dec r.length))
  | [], l, h => by simp at h; subst h; rfl
  | r :: rs, l, h => by
    rw [List.mapM_cons] at h
    cases hr : rangeToRefract lines r with
    | none => rw [hr] at h; simp at h
    | some e =>
      cases hl : rs.mapM (rangeToRefract lines) with
      | none => rw [hr, hl] at h; simp at h
      | some l' =>
        rw [hr, hl] at h
        simp only [Option.pure_def, Option.bind_eq_bind, Option.bind_some, Option.some.injEq] at h
        subst h
        rw [List.mapM_cons, range_shown lines r e hr, ranges_shown lines rs l' hl]; rfl

theorem annotation_shown (lines : List Nat) (key : Bytes) (a : Annotation) (e : Elem) (h : annotationToRefract lines key a = some e) :
    shown e = some (toShow key a) ∧ e.name = str "annotation" := by
  unfold annotationToRefract sourceMapToRefract at h
  cases hl : a.location.mapM (rangeToRefract lines) with
  | none => rw [hl] at h; simp at h
  | some l =>
    rw [hl] at h
    simp only [Option.map_some, Option.some.injEq] at h
    subst h
    have hr := ranges_shown lines a.location l hl
    refine ⟨?_, rfl⟩
    have h1 : shownRanges (makeElement (.array [(makeElement (.array l)).setName (str "sourceMap")])) = some (a.location.map fun r => (dec r.location, dec r.length)) := by
      simp only [shownRanges, makeElement, Elem.setName, Elem.data, Elem.name, if_true, hr]
    simp only [shown]
    rw [if_neg (by simp [Elem.name, Elem.setName, Elem.setMetas, Elem.setAttributes, stringElem, makeElement])]
    have e1 : ∀ (e : Elem) m at', ((e.setMetas m).setAttributes at').metas = m := fun e _ _ => by cases e; rfl
    have e2 : ∀ (e : Elem) m at', ((e.setMetas m).setAttributes at').attributes = at' := fun e _ _ => by cases e; rfl
    have e3 : ((((stringElem a.message).setName (str "annotation")).setMetas
      [(str "classes", makeElement (.array [stringElem key]))]).setAttributes
      [(str "code", numberElem a.code), (str "sourceMap", makeElement (.array [(makeElement (.array l)).setName (str "sourceMap")]))]).data = .string a.message := rfl
    have f1 : Infos.find [(str "code", numberElem a.code), (str "sourceMap", makeElement (.array [(makeElement (.array l)).setName (str "sourceMap")]))] (str "sourceMap")
        = some (makeElement (.array [(makeElement (.array l)).setName (str "sourceMap")])) := rfl
    have f2 : Infos.find [(str "code", numberElem a.code), (str "sourceMap", makeElement (.array [(makeElement (.array l)).setName (str "sourceMap")]))] (str "code")
        = some (numberElem a.code) := rfl
    rw [e1, e2, e3, f1, f2]
    simp only [Option.bind_some, h1]
    rfl

theorem mapM_total {α β} (f : α → Option β) : ∀ (l : List α), (∀ a ∈ l, ∃ b, f a = some b) → ∃ r, l.mapM f = some r
  | [], _ => ⟨[], rfl⟩
  | a :: l, h => by
    obtain ⟨b, hb⟩ := h a (by simp)
    obtain ⟨r, hr⟩ := mapM_total f l (fun x hx => h x (by simp [hx]))
    exact ⟨b :: r, by rw [List.mapM_cons, hb, hr]; rfl⟩

theorem mapM_pairwise {α β} (f : α → Option β) (P : α → β → Prop) (hP : ∀ a b, f a = some b → P a b) :
    ∀ (l : List α) (r : List β), l.mapM f = some r → Pairwise2 P l r
  | [], r, h => by simp at h; subst h; exact .nil
  | a :: l, r, h => by
    rw [List.mapM_cons] at h
    cases ha : f a with
    | none => rw [ha] at h; simp at h
    | some b =>
      cases hl : l.mapM f with
      | none => rw [ha, hl] at h; simp at h
      | some r' =>
        rw [ha, hl] at h
        simp only [Option.pure_def, Option.bind_eq_bind, Option.bind_some, Option.some.injEq] at h
        subst h
        exact .cons (hP a b ha) (mapM_pairwise f P hP l r' hl)

theorem annotation_total (src : Bytes) (key : Bytes) (a : Annotation) (h : Placed a) : ∃ e, annotationToRefract (linesEndIndex src) key a = some e := by
  have : ∃ l, a.location.mapM (rangeToRefract (linesEndIndex src)) = some l := by
    apply mapM_total
    intro r hr
    obtain ⟨p, hp⟩ := lines_total src r.location r.length (h r hr)
    exact ⟨_, by unfold rangeToRefract; rw [hp]; rfl⟩
  obtain ⟨l, hl⟩ := this
  exact ⟨_, by unfold annotationToRefract sourceMapToRefract; rw [hl]; rfl⟩

/-! ## WrapRefract -/

/-- The pieces of a parse result. -/
theorem wrap_pieces (lines : List Nat) (report : Report) (c : Converted) (e : Elem) (report' : Report)
    (h : wrapRefract lines report c = .ok (e, report')) :
    ∃ blueprint warned err ws, convert report c = .ok (report'.error, blueprint, warned) ∧
      report'.warnings = report.warnings ++ warned ∧
      e = (makeElement (.array (blueprint ++ err ++ ws))).setName (str "parseResult") ∧
      (report'.error.code = 0 → err = []) ∧
      (report'.error.code ≠ 0 → ∃ x, err = [x] ∧ annotationToRefract lines (str "error") report'.error = some x) ∧
      (report.warnings ++ warned).mapM (annotationToRefract lines (str "warning")) = some ws := by
  unfold wrapRefract at h
  cases hc : convert report c with
  | escaped => rw [hc] at h; simp [Run.bind] at h
  | undefined => rw [hc] at h; simp [Run.bind] at h
  | ok t =>
    obtain ⟨error, blueprint, warned⟩ := t
    rw [hc] at h
    simp only [Run.bind] at h
    cases he : (if error.code ≠ 0 then (annotationToRefract lines (str "error") error).map ([·]) else some []) with
    | none => rw [he] at h; simp [Run.ofOption] at h
    | some err =>
      rw [he] at h
      simp only [Run.ofOption] at h
      cases hw : (report.warnings ++ warned).mapM (annotationToRefract lines (str "warning")) with
      | none => rw [hw] at h; simp at h
      | some ws =>
        rw [hw] at h
        simp only [Run.ok.injEq, Prod.mk.injEq] at h
        obtain ⟨rfl, rfl⟩ := h
        refine ⟨blueprint, warned, err, ws, rfl, rfl, rfl, ?_, ?_, hw⟩
        · intro h0
          simp only at h0
          rw [if_neg (by simp [h0])] at he; simpa using he.symm
        · intro h0
          simp only at h0
          rw [if_pos h0] at he
          simp only [Option.map_eq_some_iff] at he
          obtain ⟨x, hx, rfl⟩ := he
          exact ⟨x, rfl, hx⟩

/-! ## CheckSource -/

theorem utf8_ascii_byte (c : Nat) (b : UInt8) (hb : b < 0x80) (h : Scalar c) : b ∈ utf8 c ↔ c = b.toNat := by
  have hc : c < 0x110000 := by unfold Scalar at h; omega
  have hb' : b.toNat < 128 := by simpa using UInt8.lt_iff_toNat_lt.1 hb
  unfold utf8
  have key : ∀ n : Nat, n < 256 → (b = n.toUInt8 ↔ b.toNat = n) := by
    intro n hn
    rw [← UInt8.toNat_inj, Utf8.toNat_toUInt8, Nat.mod_eq_of_lt hn]
  split
  · simp only [List.mem_singleton]; rw [key c (by omega)]; omega
  · split
    · simp only [List.mem_cons, List.not_mem_nil, or_false]
      rw [key _ (by omega), key _ (by omega)]; omega
    · split
      · simp only [List.mem_cons, List.not_mem_nil, or_false]
        rw [key _ (by omega), key _ (by omega), key _ (by omega)]; omega
      · simp only [List.mem_cons, List.not_mem_nil, or_false]
        rw [key _ (by omega), key _ (by omega), key _ (by omega), key _ (by omega)]; omega

theorem findByte_utf8s (b : UInt8) (hb : b < 0x80) : ∀ (cs : List Nat), (∀ c ∈ cs, Scalar c) →
    findByte (utf8s cs) b = (cs.findIdx? (· == b.toNat)).map (byteOffset cs) := by
  intro cs
  induction cs with
  | nil => intro _; rfl
  | cons c cs ih =>
    intro h
    have hc := h c (by simp)
    have ih := ih (fun x hx => h x (by simp [hx]))
    unfold findByte at *
    rw [show utf8s (c :: cs) = utf8 c ++ utf8s cs from rfl, List.findIdx?_append, ih, List.findIdx?_cons]
    by_cases he : c = b.toNat
    · have : utf8 c = [b] := by
        have hb' : b.toNat < 128 := by simpa using UInt8.lt_iff_toNat_lt.1 hb
        rw [utf8, if_pos (by omega), he]; simp
      simp [he, this, byteOffset_zero]
      rw [← he, this]; simp
    · have hno : (utf8 c).findIdx? (· == b) = none := by
        rw [List.findIdx?_eq_none_iff]
        intro x hx
        simp only [beq_eq_false_iff_ne]
        rintro rfl
        exact he ((utf8_ascii_byte c x hb hc).1 hx)
      rw [hno]
      simp only [Option.none_or, beq_eq_false_iff_ne.2 he]
      cases cs.findIdx? (· == b.toNat) with
      | none => rfl
      | some k =>
        simp only [Option.map_some, Bool.false_eq_true, if_false, Option.some.injEq]
        rw [byteOffset_succ]; omega

theorem findIdx_first (cs : List Nat) (x : Nat) : cs.findIdx? (· == x) = if x ∈ cs then some (cs.idxOf x) else none := by
  induction cs with
  | nil => rfl
  | cons c cs ih =>
    rw [List.findIdx?_cons, ih, List.idxOf_cons]
    by_cases h : c = x
    · simp [h]
    · have h' : ¬ x = c := fun e => h e.symm
      have hb : (c == x) = false := beq_eq_false_iff_ne.2 h
      by_cases hx : x ∈ cs <;> simp [h', hx, hb]

end Verif.Api
