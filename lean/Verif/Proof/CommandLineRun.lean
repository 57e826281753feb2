import Verif.Proof.CommandLine

/-! # Runs of the command line program -/

namespace Verif.CommandLine
open Verif Verif.Refract Verif.ByteBuffer Verif.Lines Verif.Api Verif.Spec Verif.Spec.CommandLine Verif.Props

theorem mapM_mem {α β} (f : α → Option β) : ∀ {l : List α} {r : List β}, l.mapM f = some r → ∀ a ∈ l, ∃ b, f a = some b
  | [], _, _ => by simp
  | a :: l, r, h => by
    rw [mapM_cons'] at h
    cases ha : f a with
    | none => rw [ha] at h; cases h
    | some b =>
      cases hl : l.mapM f with
      | none => rw [ha, hl] at h; cases h
      | some bs =>
        intro x hx
        rcases List.mem_cons.mp hx with rfl | hx
        · exact ⟨b, ha⟩
        · exact mapM_mem f hl x hx

/-- Annotations that are in a parse result have places. -/
theorem annotation_placed {src cls : Bytes} {a : Annotation} {e : Elem} (h : annotationToRefract (linesEndIndex src) cls a = some e) : Placed a := by
  intro r hr
  unfold annotationToRefract sourceMapToRefract at h
  cases hl : a.location.mapM (rangeToRefract (linesEndIndex src)) with
  | none => rw [hl] at h; cases h
  | some l =>
    obtain ⟨e', he⟩ := mapM_mem _ hl r hr
    apply Nat.pos_of_ne_zero
    intro h0
    obtain ⟨loc, len⟩ := r
    have h1 : loc = 0 := by simp at h0; omega
    have h2 : len = 0 := by simp at h0; omega
    subst h1 h2
    unfold rangeToRefract at he
    rw [show getLineFromMap (linesEndIndex src) 0 0 = none from C11_empty_at_zero_refuted src] at he
    cases he

theorem wrap_placed {src : Bytes} {report report' : Report} {c : Converted} {e : Elem}
    (h : wrapRefract (linesEndIndex src) report c = .ok (e, report')) :
    (report'.error.code ≠ 0 → Placed report'.error) ∧ ∀ w ∈ report'.warnings, Placed w := by
  obtain ⟨b, warned, err, ws, hc, hw, rfl, h0, h1, hws⟩ := wrap_pieces _ report c e report' h
  rw [← hw] at hws
  refine ⟨fun hz => ?_, fun w hw => ?_⟩
  · obtain ⟨x, _, hx⟩ := h1 hz
    exact annotation_placed hx
  · obtain ⟨x, hx⟩ := mapM_mem _ hws w hw
    exact annotation_placed hx

theorem positions_total (s : Bytes) : ∀ (rs : List Range), (∀ r ∈ rs, 0 < r.location + r.length) → ∃ t, Positions s rs t
  | [], _ => ⟨_, .nil⟩
  | r :: rs, h => by
    obtain ⟨p, hp⟩ := lines_total s r.location r.length (h r List.mem_cons_self)
    obtain ⟨t, ht⟩ := positions_total s rs fun r hr => h r (List.mem_cons_of_mem _ hr)
    exact ⟨_, .cons hp ht⟩

theorem line_total (s : Bytes) (lines : Bool) (cls : Bytes) (a : Annotation) (h : Placed a) : ∃ l, Line s lines cls a l := by
  cases lines with
  | false => exact ⟨_, .mk .characters⟩
  | true =>
    obtain ⟨t, ht⟩ := positions_total s a.location h
    exact ⟨_, .mk (.lines ht)⟩

theorem warnings_total (s : Bytes) (lines : Bool) : ∀ (ws : List Annotation), (∀ w ∈ ws, Placed w) → ∃ t, Warnings s lines ws t
  | [], _ => ⟨_, .nil⟩
  | w :: ws, h => by
    obtain ⟨l, hl⟩ := line_total s lines (str "warning") w (h w List.mem_cons_self)
    obtain ⟨t, ht⟩ := warnings_total s lines ws fun w hw => h w (List.mem_cons_of_mem _ hw)
    exact ⟨_, .cons hl ht⟩

theorem written_total (s : Bytes) (lines : Bool) (report : Report) (he : report.error.code ≠ 0 → Placed report.error)
    (hw : ∀ w ∈ report.warnings, Placed w) : ∃ t, Written s lines report t := by
  obtain ⟨t, ht⟩ := warnings_total s lines report.warnings hw
  by_cases hz : report.error.code = 0
  · exact ⟨_, .ok hz ht⟩
  · obtain ⟨l, hl⟩ := line_total s lines (str "error") report.error (he hz)
    exact ⟨_, .error hz hl ht⟩

/-- A parse of the command line program. -/
theorem parse_iff (env : Env) (src : Bytes) (ret : Int) (res : Option Elem) :
    parseBlueprint env (some src) true (some initParse) = .ok (ret, res) ↔
      ∃ report e report', scParse env src false = some report ∧
        wrapRefract (linesEndIndex src) report (env.converter src false (some initParse)) = .ok (e, report') ∧ ret = report'.error.code ∧ res = some e := by
  have hn : isNameRequired (some initParse) = false := by decide
  unfold parseBlueprint
  simp only [hn]
  cases hs : scParse env src false with
  | none => simp [Run.ofOption, Run.bind]
  | some report =>
    simp only [Run.ofOption, Run.bind]
    cases hw : wrapRefract (linesEndIndex src) report (env.converter src false (some initParse)) with
    | ok p =>
      obtain ⟨e, report'⟩ := p
      simp only [if_true, Run.ok.injEq, Prod.mk.injEq]
      constructor
      · rintro ⟨rfl, rfl⟩
        exact ⟨_, _, _, rfl, hw, rfl, rfl⟩
      · rintro ⟨r, e', r', h1, h2, rfl, rfl⟩
        injection h1 with h1
        subst h1
        rw [hw] at h2
        simp only [Run.ok.injEq, Prod.mk.injEq] at h2
        obtain ⟨rfl, rfl⟩ := h2
        exact ⟨rfl, rfl⟩
    | escaped =>
      simp only [reduceCtorEq, false_iff, not_exists, not_and]
      rintro r e' r' h1 h2
      injection h1 with h1
      subst h1
      rw [hw] at h2; cases h2
    | undefined =>
      simp only [reduceCtorEq, false_iff, not_exists, not_and]
      rintro r e' r' h1 h2
      injection h1 with h1
      subst h1
      rw [hw] at h2; cases h2

theorem options_format (c : Config) : getFormat (some (serializeOptions c)) = if c.json then 1 else 0 := by
  cases c with | mk j s v l => cases j <;> cases s <;> rfl

theorem options_maps (c : Config) : areSourcemapsIncluded (some (serializeOptions c)) = c.sourceMap := by
  cases c with | mk j s v l => cases j <;> cases s <;> cases v <;> cases l <;> decide

theorem serialize_config (c : Config) (e : Elem) : serialize (some e) (some (serializeOptions c)) =
    some ((if c.json then Json.serializeJson false (renderSo e c.sourceMap) else Yaml.serializeYaml (renderSo e c.sourceMap)).takeWhile (· ≠ 0)) := by
  unfold serialize
  simp only [options_format, options_maps]
  cases c.json <;> simp

/-- The places do not fit into an `int`. -/
theorem locations_big {idx src : List Nat} (first : Bool) : ∀ {rs : List Range} {l : List Elem}, rs.mapM (rangeToRefract idx) = some l →
    (∃ r ∈ rs, 2147483648 ≤ r.location ∨ 2147483648 ≤ r.length) → locations (some src) first l = none
  | [], _, _, h => by obtain ⟨r, hr, _⟩ := h; cases hr
  | r :: rs, l, h, hb => by
    rw [mapM_cons'] at h
    cases hr : rangeToRefract idx r with
    | none => rw [hr] at h; cases h
    | some e =>
      cases hl : rs.mapM (rangeToRefract idx) with
      | none => rw [hr, hl] at h; cases h
      | some l' =>
        rw [hr, hl] at h
        simp only [Option.bind_some, Option.map_some, Option.some.injEq] at h
        subst h
        have hx := location_range hr (some src)
        simp only at hx
        obtain ⟨r', hr', hbig⟩ := hb
        rcases List.mem_cons.mp hr' with rfl | hr'
        · have : location (some src) e = none := by
            rw [hx]
            rcases hbig with hbig | hbig
            · rw [stoi_big hbig]; rfl
            · rw [stoi_big hbig]; cases stoi (dec (r'.location : Int)) <;> rfl
          simp only [locations, this, Option.bind_none]
        · have ih := locations_big (src := src) false hl ⟨r', hr', hbig⟩
          simp only [locations, ih, Option.map_none]
          cases location (some src) e <;> rfl

theorem mapM_none {α β} (f : α → Option β) : ∀ {l : List α} {a : α}, a ∈ l → f a = none → l.mapM f = none
  | x :: l, a, h, hf => by
    rw [mapM_cons']
    rcases List.mem_cons.mp h with rfl | h
    · rw [hf]; rfl
    · rw [mapM_none f h hf]; cases f x <;> rfl

theorem mapM_elem {α β} (f : α → Option β) : ∀ {l : List α} {r : List β}, l.mapM f = some r → ∀ a ∈ l, ∃ b ∈ r, f a = some b
  | [], _, _ => by simp
  | a :: l, r, h => by
    rw [mapM_cons'] at h
    cases ha : f a with
    | none => rw [ha] at h; cases h
    | some b =>
      cases hl : l.mapM f with
      | none => rw [ha, hl] at h; cases h
      | some bs =>
        rw [ha, hl] at h
        simp only [Option.bind_some, Option.map_some, Option.some.injEq] at h
        subst h
        intro x hx
        rcases List.mem_cons.mp hx with rfl | hx
        · exact ⟨b, List.mem_cons_self, ha⟩
        · obtain ⟨y, hy, hf⟩ := mapM_elem f hl x hx
          exact ⟨y, List.mem_cons_of_mem _ hy, hf⟩

theorem annotation_big {idx src : List Nat} {cls : Bytes} {a : Annotation} {e : Elem} (h : annotationToRefract idx cls a = some e)
    (hb : ∃ r ∈ a.location, 2147483648 ≤ r.location ∨ 2147483648 ≤ r.length) : annotationToString (some src) e = none := by
  unfold annotationToRefract sourceMapToRefract at h
  cases hl : a.location.mapM (rangeToRefract idx) with
  | none => rw [hl] at h; cases h
  | some l =>
    rw [hl] at h
    simp only [Option.map_some, Option.some.injEq] at h
    subst h
    show (locations (some src) true l).map _ = none
    rw [locations_big true hl hb]
    rfl

theorem report_big {idx : List Nat} {report report' : Report} {c : Converted} {e : Elem} (h : wrapRefract idx report c = .ok (e, report'))
    {a : Annotation} (ha : a ∈ report'.warnings ∨ a = report'.error ∧ report'.error.code ≠ 0)
    (hb : ∃ r ∈ a.location, 2147483648 ≤ r.location ∨ 2147483648 ≤ r.length) (s : Bytes) (n : Int) :
    printReport e s true n = none := by
  obtain ⟨b, warned, err, ws, hc, hw', rfl, h0, h1, hws⟩ := wrap_pieces idx report c e report' h
  rw [← hw'] at hws
  have hx : ∃ x cls, x ∈ b ++ err ++ ws ∧ annotationToRefract idx cls a = some x := by
    rcases ha with ha | ⟨rfl, hne⟩
    · obtain ⟨x, hx, hax⟩ := mapM_elem _ hws a ha
      exact ⟨x, _, by simp [hx], hax⟩
    · obtain ⟨x, rfl, hx⟩ := h1 hne
      exact ⟨x, _, by simp, hx⟩
  obtain ⟨x, cls, hx, hax⟩ := hx
  unfold printReport
  rw [if_pos rfl, mapM_none _ (a := x) ?_ (annotation_big hax hb)]
  · rfl
  · have hch : childrenOf ((makeElement (.array (b ++ err ++ ws))).setName (str "parseResult")) = b ++ err ++ ws := rfl
    rw [hch, List.mem_filter]
    exact ⟨hx, by simpa using annotation_name hax⟩

end Verif.CommandLine
