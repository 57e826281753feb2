import Verif.Model.CommandLine
import Verif.Spec.CommandLine
import Verif.Proof.Api

/-! # The report of the command line program -/

namespace Verif.CommandLine
open Verif Verif.Refract Verif.ByteBuffer Verif.Lines Verif.Api Verif.Spec Verif.Spec.CommandLine

/-! ## Numbers -/

theorem dec_nat (n : Nat) : dec (n : Int) = (Nat.toDigits 10 n).map asc := by
  have h : (toString (n : Int)).toList = Nat.toDigits 10 n := by
    show (toString n).toList = _
    exact Nat.toList_repr
  unfold dec str
  rw [h]

theorem decimal_dec (n : Nat) : decimal n = dec (n : Int) := rfl

theorem digit_cases {c : Char} (h : c.isDigit = true) : Number.isDigit (asc c) = true ∧ (asc c).toNat - 48 = c.toNat - 48 ∧
    Number.isspace (asc c) = false ∧ asc c ≠ asc '-' ∧ asc c ≠ asc '+' := by
  have h1 : 48 ≤ c.toNat ∧ c.toNat ≤ 57 := by
    simp only [Char.isDigit, ge_iff_le, Bool.and_eq_true, decide_eq_true_eq] at h
    exact ⟨by simpa using UInt32.le_iff_toNat_le.mp h.1, by simpa using UInt32.le_iff_toNat_le.mp h.2⟩
  have hn : ∃ n : Nat, c.toNat = 48 + n ∧ n < 10 := ⟨c.toNat - 48, by omega, by omega⟩
  obtain ⟨n, hn, hlt⟩ := hn
  have ha : asc c = UInt8.ofNat (48 + n) := by unfold asc; rw [hn]
  rw [ha, hn]
  match n, hlt with
  | 0, _ | 1, _ | 2, _ | 3, _ | 4, _ | 5, _ | 6, _ | 7, _ | 8, _ | 9, _ => decide

theorem fold_digits : ∀ (l : List Char) (a : Nat), (∀ c ∈ l, c.isDigit = true) →
    (l.map asc).foldl (fun a c => 10 * a + (c.toNat - 48)) a = Nat.ofDigitChars 10 l a
  | [], a, _ => by simp
  | c :: l, a, h => by
    rw [List.map_cons, List.foldl_cons, fold_digits l _ (fun x hx => h x (List.mem_cons_of_mem _ hx)), Nat.ofDigitChars_cons,
      (digit_cases (h c List.mem_cons_self)).2.1]
    rfl

theorem stoi_digits {s : Bytes} (hs : s.dropWhile Number.isspace = s) (hm : ¬ s.head? = some (asc '-')) (hp : ¬ s.head? = some (asc '+'))
    (ht : s.takeWhile Number.isDigit = s) (hn : s ≠ []) {n : Nat} (hf : s.foldl (fun a c => 10 * a + (c.toNat - 48)) 0 = n) :
    stoi s = if 2147483647 < n then none else some (n : Int) := by
  unfold stoi
  have he : s.isEmpty = false := by cases s with | nil => exact absurd rfl hn | cons _ _ => rfl
  simp only [hs, hm, hp, or_self, if_false, ht, hf, he, Bool.false_eq_true]
  by_cases h : 2147483647 < n
  · rw [if_pos h, if_pos (by omega)]
  · rw [if_neg h, if_neg (by omega)]

theorem stoi_dec (n : Nat) : stoi (dec (n : Int)) = if 2147483647 < n then none else some (n : Int) := by
  have hd : ∀ c ∈ Nat.toDigits 10 n, c.isDigit = true := fun c hc => Nat.isDigit_of_mem_toDigits (by decide) (by decide) hc
  have hne : Nat.toDigits 10 n ≠ [] := Nat.toDigits_ne_nil
  have hf := fold_digits (Nat.toDigits 10 n) 0 hd
  rw [Nat.ofDigitChars_ten_toDigits] at hf
  rw [dec_nat]
  generalize hl : Nat.toDigits 10 n = l at hd hne hf
  have htake : (l.map asc).takeWhile Number.isDigit = l.map asc := by
    clear hf hl hne
    induction l with
    | nil => rfl
    | cons c l ih =>
      rw [List.map_cons, List.takeWhile_cons, (digit_cases (hd c List.mem_cons_self)).1, if_pos rfl,
        ih fun x hx => hd x (List.mem_cons_of_mem _ hx)]
  cases l with
  | nil => exact absurd rfl hne
  | cons c l =>
    obtain ⟨_, _, h3, h4, h5⟩ := digit_cases (hd c List.mem_cons_self)
    refine stoi_digits ?_ (by simpa using h4) (by simpa using h5) htake (by simp) hf
    rw [List.map_cons, List.dropWhile_cons, h3]; rfl

theorem stoi_small {n : Nat} (h : n < 2147483648) : stoi (dec (n : Int)) = some (n : Int) := by
  rw [stoi_dec, if_neg (by omega)]

theorem stoi_big {n : Nat} (h : 2147483648 ≤ n) : stoi (dec (n : Int)) = none := by
  rw [stoi_dec, if_pos (by omega)]

theorem toSize_small {n : Nat} (h : n < 2147483648) : toSize (n : Int) = n := by
  unfold toSize; omega

/-! ## Annotations -/

theorem mapM_cons' {α β} (f : α → Option β) (a : α) (l : List α) :
    (a :: l).mapM f = (f a).bind fun b => (l.mapM f).map fun bs => b :: bs := by
  rw [List.mapM_cons]; cases f a <;> cases l.mapM f <;> rfl

theorem location_range {idx : List Nat} {r : Range} {e : Elem} (h : rangeToRefract idx r = some e) (lines : Option (List Nat)) :
    location lines e = match lines with
      | none => some (characters r)
      | some idx => (stoi (dec r.location)).bind fun l => (stoi (dec r.length)).bind fun n =>
          (getLineFromMap idx (toSize l) (toSize n)).map printPosition := by
  unfold rangeToRefract at h
  cases hp : getLineFromMap idx r.location r.length with
  | none => rw [hp] at h; cases h
  | some p =>
    rw [hp] at h
    simp only [Option.map_some, Option.some.injEq] at h
    subst h
    cases lines <;> rfl

theorem locations_characters {idx : List Nat} : ∀ {rs : List Range} {l : List Elem}, rs.mapM (rangeToRefract idx) = some l →
    locations none false l = some (rs.map fun r => str ";" ++ characters r).flatten ∧
    locations none true l = some (allCharacters rs)
  | [], l, h => by simp at h; subst h; exact ⟨rfl, rfl⟩
  | r :: rs, l, h => by
    rw [mapM_cons'] at h
    cases hr : rangeToRefract idx r with
    | none => rw [hr] at h; cases h
    | some e =>
      cases hl : rs.mapM (rangeToRefract idx) with
      | none => rw [hr, hl] at h; cases h
      | some l' =>
        rw [hr, hl] at h
        simp only [Option.bind_some, Option.map_some, Option.some.injEq] at h
        subst h
        have ih := (locations_characters hl).1
        have hx := location_range hr none
        simp only at hx
        constructor
        · simp only [locations, hx, ih, Option.bind_some, Option.map_some, Option.some.injEq]
          simp
        · simp only [locations, hx, ih, Option.bind_some, Option.map_some, Option.some.injEq, allCharacters]
          simp

theorem locations_lines {idx src} {s : Bytes} (hs : src = linesEndIndex s) (first : Bool) : ∀ {rs : List Range} {l : List Elem},
    rs.mapM (rangeToRefract idx) = some l → (∀ r ∈ rs, r.location < 2147483648 ∧ r.length < 2147483648) →
    ∀ t, locations (some src) first l = some t ↔ Positions s rs t
  | [], l, h, _, t => by
    simp at h; subst h
    simp only [locations, Option.some.injEq]
    constructor
    · rintro rfl; exact .nil
    · intro h; cases h; rfl
  | r :: rs, l, h, hsm, t => by
    rw [mapM_cons'] at h
    cases hr : rangeToRefract idx r with
    | none => rw [hr] at h; cases h
    | some e =>
      cases hl : rs.mapM (rangeToRefract idx) with
      | none => rw [hr, hl] at h; cases h
      | some l' =>
        rw [hr, hl] at h
        simp only [Option.bind_some, Option.map_some, Option.some.injEq] at h
        subst h
        have ih := fun t => locations_lines hs false hl (fun r hr => hsm r (List.mem_cons_of_mem _ hr)) t
        have h1 := hsm r List.mem_cons_self
        have hx := location_range hr (some src)
        simp only [stoi_small h1.1, stoi_small h1.2, Option.bind_some, toSize_small h1.1, toSize_small h1.2] at hx
        simp only [locations, hx, List.nil_append]
        constructor
        · intro h
          cases hp : getLineFromMap src r.location r.length with
          | none => rw [hp] at h; cases h
          | some p =>
            cases hl' : locations (some src) false l' with
            | none => rw [hp, hl'] at h; cases h
            | some t' =>
              rw [hp, hl'] at h
              simp only [Option.map_some, Option.bind_some, Option.some.injEq] at h
              subst h
              exact .cons (hs ▸ hp) ((ih t').mp hl')
        · intro h
          cases h with
          | cons hp ht =>
            rw [← hs] at hp
            rw [hp, (ih _).mpr ht]
            rfl

theorem line_ends {s : Bytes} {lines : Bool} {cls : Bytes} {a : Annotation} {x : Bytes} (h : Line s lines cls a x) : ∃ t, x = t ++ str "\n" := by
  cases h; exact ⟨_, rfl⟩

theorem line_iff {s : Bytes} {lines : Bool} {cls : Bytes} {a : Annotation} {t : Bytes} : Line s lines cls a (t ++ str "\n") ↔
    ∃ p, Places s lines a.location p ∧ t = cls ++ str ": (" ++ dec a.code ++ str ")  " ++ a.message ++ p := by
  constructor
  · generalize e : t ++ str "\n" = x
    intro h
    cases h with
    | mk h => exact ⟨_, h, List.append_cancel_right e⟩
  · rintro ⟨p, h, rfl⟩
    exact .mk h

theorem annotation_line {idx : List Nat} {cls : Bytes} {a : Annotation} {e : Elem} (h : annotationToRefract idx cls a = some e)
    {s : Bytes} {lines : Bool} (hsm : lines = true → Small a) (t : Bytes) :
    annotationToString (if lines then some (linesEndIndex s) else none) e = some t ↔ Line s lines cls a (t ++ str "\n") := by
  unfold annotationToRefract sourceMapToRefract at h
  cases hl : a.location.mapM (rangeToRefract idx) with
  | none => rw [hl] at h; cases h
  | some l =>
    rw [hl] at h
    simp only [Option.map_some, Option.some.injEq] at h
    subst h
    have hstr : ∀ o, annotationToString o ((((stringElem a.message).setName (str "annotation")).setMetas
        [(str "classes", makeElement (.array [stringElem cls]))]).setAttributes
        [(str "code", numberElem a.code), (str "sourceMap", makeElement (.array [(makeElement (.array l)).setName (str "sourceMap")]))]) =
        (locations o true l).map fun x => cls ++ str ": " ++ (str "(" ++ dec a.code ++ str ")  ") ++ a.message ++ x := by
      intro o
      rfl
    rw [hstr, line_iff]
    have hplaces : ∀ x, locations (if lines then some (linesEndIndex s) else none) true l = some x ↔ Places s lines a.location x := by
      intro x
      cases lines with
      | false =>
        simp only [Bool.false_eq_true, if_false, (locations_characters hl).2, Option.some.injEq]
        constructor
        · rintro rfl; exact .characters
        · intro h; cases h; rfl
      | true =>
        simp only [if_true, locations_lines rfl true hl (hsm rfl)]
        exact ⟨.lines, fun h => by cases h; assumption⟩
    constructor
    · intro h
      cases hx : locations (if lines then some (linesEndIndex s) else none) true l with
      | none => rw [hx] at h; cases h
      | some x =>
        rw [hx] at h
        simp only [Option.map_some, Option.some.injEq] at h
        exact ⟨x, (hplaces x).mp hx, by rw [← h]; simp [str]⟩
    · rintro ⟨x, hx, rfl⟩
      rw [(hplaces x).mpr hx]
      simp [str]

theorem warnings_iff {idx : List Nat} {s : Bytes} {lines : Bool} : ∀ {ws : List Annotation} {es : List Elem},
    ws.mapM (annotationToRefract idx (str "warning")) = some es → (lines = true → ∀ w ∈ ws, Small w) →
    ∀ t, (∃ ls, es.mapM (annotationToString (if lines then some (linesEndIndex s) else none)) = some ls ∧ t = (ls.map (· ++ str "\n")).flatten) ↔
      Warnings s lines ws t
  | [], es, h, _, t => by
    simp at h; subst h
    constructor
    · rintro ⟨ls, h, rfl⟩; simp at h; subst h; exact .nil
    · intro h; cases h; exact ⟨[], rfl, rfl⟩
  | w :: ws, es, h, hsm, t => by
    rw [mapM_cons'] at h
    cases hw : annotationToRefract idx (str "warning") w with
    | none => rw [hw] at h; cases h
    | some e =>
      cases hl : ws.mapM (annotationToRefract idx (str "warning")) with
      | none => rw [hw, hl] at h; cases h
      | some es' =>
        rw [hw, hl] at h
        simp only [Option.bind_some, Option.map_some, Option.some.injEq] at h
        subst h
        have ih := fun t => warnings_iff hl (s := s) (lines := lines) (fun h w hw => hsm h w (List.mem_cons_of_mem _ hw)) t
        have hx := fun t => annotation_line hw (s := s) (lines := lines) (fun h => hsm h w List.mem_cons_self) t
        constructor
        · rintro ⟨ls, h, rfl⟩
          rw [mapM_cons'] at h
          cases ha : annotationToString (if lines then some (linesEndIndex s) else none) e with
          | none => rw [ha] at h; cases h
          | some x =>
            cases hb : es'.mapM (annotationToString (if lines then some (linesEndIndex s) else none)) with
            | none => rw [ha, hb] at h; cases h
            | some y =>
              rw [ha, hb] at h
              simp only [Option.bind_some, Option.map_some, Option.some.injEq] at h
              subst h
              exact .cons ((hx x).mp ha) ((ih _).mp ⟨y, hb, rfl⟩)
        · intro h
          cases h with
          | cons h1 h2 =>
            obtain ⟨y, hb, rfl⟩ := (ih _).mpr h2
            obtain ⟨x, rfl⟩ := line_ends h1
            refine ⟨x :: y, ?_, rfl⟩
            rw [mapM_cons', (hx x).mpr h1, hb]
            rfl

theorem annotation_name {idx : List Nat} {cls : Bytes} {a : Annotation} {e : Elem} (h : annotationToRefract idx cls a = some e) :
    e.name = str "annotation" := by
  unfold annotationToRefract at h
  cases hs : sourceMapToRefract idx a.location with
  | none => rw [hs] at h; cases h
  | some sm => rw [hs] at h; simp only [Option.map_some, Option.some.injEq] at h; subst h; rfl

theorem names_warnings {idx : List Nat} {cls : Bytes} : ∀ {ws : List Annotation} {es : List Elem},
    ws.mapM (annotationToRefract idx cls) = some es → ∀ e ∈ es, e.name = str "annotation"
  | [], es, h => by simp at h; subst h; simp
  | w :: ws, es, h => by
    rw [mapM_cons'] at h
    cases hw : annotationToRefract idx cls w with
    | none => rw [hw] at h; cases h
    | some e =>
      cases hl : ws.mapM (annotationToRefract idx cls) with
      | none => rw [hw, hl] at h; cases h
      | some es' =>
        rw [hw, hl] at h
        simp only [Option.bind_some, Option.map_some, Option.some.injEq] at h
        subst h
        intro x hx
        rcases List.mem_cons.mp hx with rfl | hx
        · exact annotation_name hw
        · exact names_warnings hl x hx

theorem convert_blueprint {report : Report} {c : Converted} {error : Annotation} {b : List Elem} {warned : List Annotation}
    (h : convert report c = .ok (error, b, warned)) : ∀ x ∈ b, c.result = .ok x := by
  unfold convert at h
  split at h
  · cases hr : c.result with
    | ok e =>
      rw [hr] at h
      simp only [Run.ok.injEq, Prod.mk.injEq] at h
      obtain ⟨_, rfl, _⟩ := h
      simp
    | error t =>
      rw [hr] at h
      cases t with
      | other => cases h
      | std w => simp only [Run.ok.injEq, Prod.mk.injEq] at h; obtain ⟨_, rfl, _⟩ := h; simp
      | error a => simp only [Run.ok.injEq, Prod.mk.injEq] at h; obtain ⟨_, rfl, _⟩ := h; simp
  · simp only [Run.ok.injEq, Prod.mk.injEq] at h
    obtain ⟨_, rfl, _⟩ := h
    simp

theorem printReport_iff {idx : List Nat} {report report' : Report} {c : Converted} {e : Elem} (h : wrapRefract idx report c = .ok (e, report'))
    (hn : ∀ x, c.result = .ok x → x.name ≠ str "annotation") {s : Bytes} {lines : Bool}
    (hsm : lines = true → Small report'.error ∧ ∀ w ∈ report'.warnings, Small w) (t : Bytes) :
    printReport e s lines report'.error.code = some t ↔ Written s lines report' t := by
  obtain ⟨b, warned, err, ws, hc, hw, rfl, h0, h1, hws⟩ := wrap_pieces idx report c e report' h
  rw [← hw] at hws
  have hb : b.filter (fun e => e.name == str "annotation") = [] := by
    rw [List.filter_eq_nil_iff]
    intro x hx
    simpa using hn x (convert_blueprint hc x hx)
  have hfw : ws.filter (fun e => e.name == str "annotation") = ws := by
    rw [List.filter_eq_self]
    intro x hx
    simpa using names_warnings hws x hx
  have hwi := warnings_iff hws (s := s) (lines := lines) (fun h => (hsm h).2)
  unfold printReport
  have hch : childrenOf ((makeElement (.array (b ++ err ++ ws))).setName (str "parseResult")) = b ++ err ++ ws := rfl
  rw [hch, List.filter_append, List.filter_append, hb, hfw, List.nil_append]
  by_cases hz : report'.error.code = 0
  · rw [h0 hz, if_pos hz, List.filter_nil, List.nil_append]
    constructor
    · intro h
      cases hm : ws.mapM (annotationToString (if lines then some (linesEndIndex s) else none)) with
      | none => rw [hm] at h; cases h
      | some ls =>
        rw [hm] at h
        simp only [Option.map_some, Option.some.injEq] at h
        subst h
        exact .ok hz ((hwi _).mp ⟨ls, hm, rfl⟩)
    · intro h
      cases h with
      | ok _ ht =>
        obtain ⟨ls, hm, rfl⟩ := (hwi _).mpr ht
        rw [hm]; rfl
      | error h' => exact absurd hz h'
  · obtain ⟨x, rfl, hx⟩ := h1 hz
    have hxi := fun t => annotation_line hx (s := s) (lines := lines) (fun h => (hsm h).1) t
    have hfx : [x].filter (fun e => e.name == str "annotation") = [x] := by
      rw [List.filter_cons, annotation_name hx]; rfl
    rw [hfx, if_neg hz]
    rw [List.singleton_append, mapM_cons']
    constructor
    · intro h
      cases ha : annotationToString (if lines then some (linesEndIndex s) else none) x with
      | none => rw [ha] at h; cases h
      | some l =>
        cases hm : ws.mapM (annotationToString (if lines then some (linesEndIndex s) else none)) with
        | none => rw [ha, hm] at h; cases h
        | some ls =>
          rw [ha, hm] at h
          simp only [Option.bind_some, Option.map_some, Option.some.injEq] at h
          subst h
          have := Written.error (report := report') hz ((hxi l).mp ha) ((hwi _).mp ⟨ls, hm, rfl⟩)
          simpa using this
    · intro h
      cases h with
      | ok h' => exact absurd h' hz
      | error _ hl ht =>
        obtain ⟨ls, hm, rfl⟩ := (hwi _).mpr ht
        obtain ⟨l, rfl⟩ := line_ends hl
        rw [(hxi l).mpr hl, hm]
        simp

end Verif.CommandLine
