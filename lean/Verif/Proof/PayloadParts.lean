import Verif.Spec.PayloadParts
import Verif.Proof.PayloadBody
import Verif.Proof.References
import Verif.Proof.MsonWalk
import Verif.Props.C80
import Verif.Props.C81

/-! # The parts of a payload and their warnings -/

namespace Verif.Payload
open Verif Verif.Text Verif.Regex Verif.Section Verif.Recognition Verif.Spec Verif.Spec.Recognition Verif.Spec.Payload Verif.Props
open Verif.References (Header)

/-! ## References -/

theorem blank_iff {c : UInt8} : References.blank c = true ↔ c = 32 ∨ c = 9 := by
  unfold References.blank
  rw [Bool.or_eq_true, beq_iff_eq, beq_iff_eq]
  exact Iff.rfl

/-- Blanks around a text are removed. -/
theorem strip_blank {a t b : Bytes} (ha : Blanks a) (hb : Blanks b) (h1 : ∀ c, t.head? = some c → ¬ (c = 32 ∨ c = 9))
    (h2 : ∀ c, t.getLast? = some c → ¬ (c = 32 ∨ c = 9)) (ht : t ≠ []) :
    (((a ++ t ++ b).dropWhile References.blank).reverse.dropWhile References.blank).reverse = t := by
  have drop : ∀ {a t : Bytes}, Blanks a → (∀ c, t.head? = some c → ¬ (c = 32 ∨ c = 9)) → (a ++ t).dropWhile References.blank = t := by
    intro a t ha h
    rw [List.dropWhile_append_of_pos (fun c hc => blank_iff.mpr (ha c hc))]
    cases t with
    | nil => rfl
    | cons c t =>
      rw [List.dropWhile_cons_of_neg]
      rw [blank_iff]; exact h c rfl
  rw [List.append_assoc, drop ha]
  · rw [List.reverse_append, drop]
    · rw [List.reverse_reverse]
    · intro c hc; exact hb c (List.mem_reverse.mp hc)
    · intro c hc; rw [List.head?_reverse] at hc; exact h2 c hc
  · intro c hc
    cases t with
    | nil => exact absurd rfl ht
    | cons d t => exact h1 c (by simpa using hc)

theorem reference_iff {text symbol : Bytes} : References.modelReference text = some symbol ↔ Reference text symbol := by
  unfold Reference
  have red : (∃ s a inner b, Seen text s ∧ s = a ++ asc '[' :: (inner ++ str "][]") ++ b ∧ Blanks a ∧ Blanks b ∧ inner ≠ [] ∧
      (∀ c ∈ inner, c ∉ [asc '[', asc ']', asc '(', asc ')']) ∧ Trimmed inner symbol) ↔
      ∃ a inner b, cstr (trim text) = a ++ asc '[' :: (inner ++ str "][]") ++ b ∧ Blanks a ∧ Blanks b ∧ inner ≠ [] ∧
      (∀ c ∈ inner, c ∉ [asc '[', asc ']', asc '(', asc ')']) ∧ Trimmed inner symbol := by
    simp only [seen_iff]
    constructor
    · rintro ⟨s, a, inner, b, rfl, h⟩; exact ⟨a, inner, b, h⟩
    · rintro ⟨a, inner, b, h⟩; exact ⟨_, a, inner, b, rfl, h⟩
  rw [red]
  unfold References.modelReference
  rw [show (trim text).takeWhile (fun x => decide (x ≠ 0)) = cstr (trim text) from rfl]
  generalize cstr (trim text) = u
  constructor
  · intro h
    dsimp only at h
    split at h
    · rename_i hc
      simp only [Bool.and_eq_true, beq_iff_eq, Bool.not_eq_true', List.isEmpty_eq_false_iff, List.all_eq_true] at hc
      cases h
      generalize hs : (List.dropWhile References.blank (List.dropWhile References.blank u).reverse).reverse = s at hc ⊢
      have e1 : u = u.takeWhile References.blank ++ u.dropWhile References.blank := (List.takeWhile_append_dropWhile).symm
      have e2 : u.dropWhile References.blank = s ++ ((u.dropWhile References.blank).reverse.takeWhile References.blank).reverse := by
        rw [← hs, ← List.reverse_append, List.takeWhile_append_dropWhile, List.reverse_reverse]
      refine ⟨u.takeWhile References.blank, _, ((u.dropWhile References.blank).reverse.takeWhile References.blank).reverse, ?_, ?_, ?_,
        hc.1.2, fun c hc' => References.symbolChar_iff.1 (hc.2 c hc'), trim_spec _⟩
      · rw [← hc.1.1, List.append_assoc, ← e2]; exact e1
      · intro c hc'; exact blank_iff.mp (mem_takeWhile_imp hc')
      · intro c hc'; exact blank_iff.mp (mem_takeWhile_imp (List.mem_reverse.mp hc'))
    · cases h
  · rintro ⟨a, inner, b, rfl, ha, hb, hne, hch, htr⟩
    have hstrip := strip_blank (t := asc '[' :: (inner ++ str "][]")) ha hb (by intro c hc; cases hc; decide)
      (by
        intro c hc
        have : (asc '[' :: (inner ++ str "][]")).getLast? = some (asc ']') := by
          have e : asc '[' :: (inner ++ str "][]") = (asc '[' :: (inner ++ str "][")) ++ [asc ']'] := by
            simp only [List.cons_append, List.append_assoc]; rfl
          rw [e]; exact List.getLast?_concat
        rw [this] at hc; cases hc; decide) (by simp)
    rw [hstrip]
    have hin : ((asc '[' :: (inner ++ str "][]")).drop 1).take ((asc '[' :: (inner ++ str "][]")).length - 4) = inner := by
      have hl : (asc '[' :: (inner ++ str "][]")).length - 4 = inner.length := by simp [str]
      rw [hl]
      simp
    dsimp only
    rw [hin, if_pos, trim_unique htr]
    simp only [beq_self_eq_true, Bool.true_and, Bool.and_eq_true, Bool.not_eq_true', List.isEmpty_eq_false_iff, List.all_eq_true]
    exact ⟨hne, fun c hc => References.symbolChar_iff.2 (hch c hc)⟩

theorem no_reference_iff {text : Bytes} : (∀ symbol, ¬ Reference text symbol) ↔ References.modelReference text = none := by
  constructor
  · intro h
    cases hm : References.modelReference text with
    | none => rfl
    | some s => exact absurd (reference_iff.mp hm) (h s)
  · intro h s hs
    rw [reference_iff.mpr hs] at h; cases h

/-! ## Blocks -/

theorem level_iff {t : SectionType} {k : Nat} : Level t k ↔ k = codeBlockLevel t := by
  constructor
  · intro h
    cases h with
    | outer h => simp only [List.mem_cons, List.not_mem_nil, or_false] at h; rcases h with rfl | rfl | rfl | rfl <;> rfl
    | short h => simp only [List.mem_cons, List.not_mem_nil, or_false] at h; rcases h with rfl | rfl | rfl <;> rfl
    | full h => cases t <;> first | rfl | exact absurd (by simp) h
  · rintro rfl
    cases t <;> first | exact .outer (by simp) | exact .short (by simp) | exact .full (by simp)

theorem maybe_iff {t : SectionType} {n : Node} {ws : List Warning} : MaybeReference t n ws ↔ ws = possibleReference t n := by
  unfold possibleReference
  constructor
  · intro h
    cases h with
    | yes h => rw [reference_iff.mpr h]
    | no h => rw [no_reference_iff.mp h]
  · rintro rfl
    split
    · exact .yes (reference_iff.mp ‹_›)
    · exact .no (no_reference_iff.mpr ‹_›)

theorem word_iff {r : Bytes} {t : SectionType} : SectionWord (cstr r) t ↔ firstLineType r = t ∧ t ≠ .undefined := by
  have hb : BodyLine (cstr r) → ¬ HeadersLine (cstr r) := fun h => not_form (i := .body) h (j := .headers) (by decide)
  have hs : SchemaLine (cstr r) → ¬ HeadersLine (cstr r) := fun h => not_form (i := .schema) h (j := .headers) (by decide)
  have hs' : SchemaLine (cstr r) → ¬ BodyLine (cstr r) := fun h => not_form (i := .schema) h (j := .body) (by decide)
  rw [← m_headers, ← m_body] at hb
  rw [← m_headers, ← m_schema] at hs
  rw [← m_body, ← m_schema] at hs'
  unfold firstLineType
  constructor
  · intro h
    cases h with
    | headers h => rw [← m_headers] at h; rw [if_pos h]; exact ⟨rfl, by decide⟩
    | body h => rw [← m_body] at h; rw [if_neg (hb h), if_pos h]; exact ⟨rfl, by decide⟩
    | schema h => rw [← m_schema] at h; rw [if_neg (hs h), if_neg (hs' h), if_pos h]; exact ⟨rfl, by decide⟩
  · rintro ⟨h, hu⟩
    split at h
    · subst h; exact .headers (m_headers.mp ‹_›)
    · split at h
      · subst h; exact .body (m_body.mp ‹_›)
      · split at h
        · subst h; exact .schema (m_schema.mp ‹_›)
        · exact absurd h.symm hu

theorem trimStart_end {m : UInt8} {r : Bytes} (h : Bare (m :: r)) : trimStart r = trim r := by
  unfold trim
  congr 1
  cases r with
  | nil => rfl
  | cons c r =>
    have h2 := h.2
    rw [List.getLast?_cons_cons] at h2
    have hd : ((c :: r).reverse).dropWhile isSpace = (c :: r).reverse := Text.dropWhile_head fun x hx => by
      rw [List.head?_reverse] at hx
      rw [← Bool.not_eq_true, isSpace_iff]; exact h2 x hx
    rw [trimEnd, hd, List.reverse_reverse]

theorem hides_iff {n : Node} {t : SectionType} : Hides n t ↔ ∃ m r, trim (getFirstLine n.text).1 = m :: r ∧
    m ∈ [asc '-', asc '+', asc '*'] ∧ firstLineType (trimStart r) = t ∧ t ≠ .undefined := by
  unfold Hides
  constructor
  · rintro ⟨l, m, r, s, h1, h2, h3, h4, h5⟩
    rw [firstLine_iff] at h1; rw [seen_iff] at h4; subst h1 h4
    have ht := trim_unique h2
    have hb : Bare (m :: r) := ht ▸ bare_trim _
    refine ⟨m, r, ht, h3, ?_⟩
    rw [trimStart_end hb]
    exact word_iff.mp h5
  · rintro ⟨m, r, ht, h3, h5⟩
    have hb : Bare (m :: r) := ht ▸ bare_trim _
    rw [trimStart_end hb] at h5
    exact ⟨_, m, r, _, firstLine_iff.mpr rfl, ht ▸ trim_spec _, h3, seen_iff.mpr rfl, word_iff.mpr h5⟩

theorem tooDeep_iff {t : SectionType} {n : Node} {ws : List Warning} : TooDeep t n ws ↔ ws = excessive t n := by
  have pos : ∀ u, Hides n u → excessive t n = [.excessive u (codeBlockLevel t - 1)] := by
    intro u h
    obtain ⟨m, r, h1, h2, h3, h4⟩ := hides_iff.mp h
    unfold excessive
    rw [h1]
    simp only
    rw [if_neg, h3, if_pos h4]
    simp only [List.mem_cons, List.not_mem_nil, or_false] at h2
    rintro ⟨a, b, c⟩
    rcases h2 with h | h | h <;> contradiction
  have neg : (∀ u, ¬ Hides n u) → excessive t n = [] := by
    intro h
    unfold excessive
    split
    · rfl
    · rename_i c r hc
      split
      · rfl
      · rename_i hm
        simp only
        split
        · rename_i hu
          refine absurd (hides_iff.mpr ⟨c, r, hc, ?_, rfl, hu⟩) (h _)
          simp only [List.mem_cons, List.not_mem_nil, or_false]
          by_cases h1 : c = asc '-'
          · exact .inl h1
          · by_cases h2 : c = asc '+'
            · exact .inr (.inl h2)
            · by_cases h3 : c = asc '*'
              · exact .inr (.inr h3)
              · exact absurd ⟨h1, h2, h3⟩ hm
        · rfl
  have one : ∃ k, codeBlockLevel t = k + 1 := by cases t <;> exact ⟨_, rfl⟩
  constructor
  · intro h
    cases h with
    | yes h hl => rw [pos _ h, ← level_iff.mp hl]; rfl
    | no h => rw [neg h]
  · rintro rfl
    by_cases h : ∃ u, Hides n u
    · obtain ⟨u, hu⟩ := h
      rw [pos u hu]
      obtain ⟨k, hk⟩ := one
      rw [hk]
      exact .yes hu (level_iff.mpr hk.symm)
    · rw [neg fun u hu => h ⟨u, hu⟩]
      exact .no fun u hu => h ⟨u, hu⟩

theorem reports_iff {w : World} {context parent : SectionType} {n : Node} {ws : List Warning} :
    Reports context parent n ws ↔ ws = (contentAsCodeBlock w context parent n).2 := by
  unfold contentAsCodeBlock
  constructor
  · intro h
    cases h with
    | code hk h1 h2 => rw [if_pos hk, maybe_iff.mp h1, tooDeep_iff.mp h2]
    | other hk h1 h2 => rw [if_neg hk, maybe_iff.mp h1, level_iff.mp h2]
  · rintro rfl
    by_cases hk : n.kind = .code
    · rw [if_pos hk]; exact .code hk (maybe_iff.mpr rfl) (tooDeep_iff.mpr rfl)
    · rw [if_neg hk]; exact .other hk (maybe_iff.mpr rfl) (level_iff.mpr rfl)

theorem said_eq {w : World} {context parent : SectionType} {n : Node} : (contentAsCodeBlock w context parent n).1 = said w n := by
  unfold contentAsCodeBlock said sourceOf
  split <;> rfl

theorem reportsAll_iff {w : World} {context parent : SectionType} {ns : List Node} : ∀ {ws : List Warning},
    ReportsAll context parent ns ws ↔ ws = (ns.map fun n => (contentAsCodeBlock w context parent n).2).flatten := by
  induction ns with
  | nil =>
    intro ws
    constructor
    · intro h; cases h; rfl
    · rintro rfl; exact .nil
  | cons n ns ih =>
    intro ws
    constructor
    · intro h
      cases h with
      | cons h1 h2 => rw [reports_iff (w := w) |>.mp h1, ih.mp h2]; rfl
    · rintro rfl; exact .cons ((reports_iff (w := w)).mpr rfl) (ih.mpr rfl)

theorem multiline_iff {context parent : SectionType} {sig : Node} {rest : Bytes} (hr : Remainder sig.text rest) {ws : List Warning} :
    Multiline context parent rest ws ↔ ws = (signatureContent context parent sig).2 := by
  rw [remainder_iff] at hr
  unfold signatureContent
  simp only [← hr]
  constructor
  · intro h
    cases h with
    | none h => simp [h]
    | some h hl =>
      rw [if_neg (by simpa using h), level_iff.mp hl]
  · rintro rfl
    split
    · rename_i h; exact .none (by simpa using h)
    · rename_i h; exact .some (by simpa using h) (level_iff.mpr rfl)

theorem lines_eq {context parent : SectionType} {sig : Node} {rest : Bytes} (hr : Remainder sig.text rest) :
    (signatureContent context parent sig).1 = lines rest := by
  rw [remainder_iff] at hr
  unfold signatureContent lines
  simp only [← hr]
  cases rest <;> rfl

theorem strays_iff {ns : List Node} : ∀ {ws : List Warning}, Strays ns ws ↔ ws = ns.map ignored := by
  induction ns with
  | nil =>
    intro ws
    constructor
    · intro h; cases h; rfl
    · rintro rfl; exact .nil
  | cons n ns ih =>
    intro ws
    constructor
    · intro h
      cases h with
      | header hk h => rw [ih.mp h]; simp [ignored, hk]
      | other hk h => rw [ih.mp h]; simp [ignored, hk]
    · rintro rfl
      rw [List.map_cons]
      unfold ignored
      split
      · exact .header ‹_› (ih.mpr rfl)
      · exact .other ‹_› (ih.mpr rfl)

/-! ## Sections -/

theorem parts_uniq {n sig sig' : Node} {bs bs' : List Node} (h : Parts n sig bs) (h' : Parts n sig' bs') : sig = sig' ∧ bs = bs' := by
  rw [parts_iff] at h h'
  exact List.cons.inj (h.2.symm.trans h'.2)

theorem starts_until {blocks pre post : List Node} : Until Starts blocks pre post ↔ pre = blocks.takeWhile plain ∧ post = blocks.dropWhile plain :=
  until_iff plain_iff

theorem assetRead_iff {w : World} {t parent : SectionType} {n sig : Node} {blocks : List Node} (hp : Parts n sig blocks) {v : Bytes}
    {ws : List Warning} : AssetRead w t parent n v ws ↔ v = assetText w t parent sig blocks ∧ ws = assetWarnings w t parent sig blocks := by
  constructor
  · rintro ⟨sig', blocks', pre, post, rest, a, b, c, h1, h2, h3, h4, h5, h6, rfl, rfl⟩
    obtain ⟨rfl, rfl⟩ := parts_uniq hp h1
    obtain ⟨rfl, rfl⟩ := starts_until.mp h2
    rw [multiline_iff h3] at h4
    rw [reportsAll_iff (w := w)] at h5
    rw [strays_iff] at h6
    subst h4 h5 h6
    unfold assetText assetWarnings
    rw [lines_eq h3]
    simp only [said_eq]
    refine ⟨?_, ?_⟩ <;> first | trivial | rfl
  · rintro ⟨rfl, rfl⟩
    refine ⟨sig, blocks, _, _, _, _, _, _, hp, starts_until.mpr ⟨rfl, rfl⟩, remainder_iff.mpr rfl, (multiline_iff (remainder_iff.mpr rfl)).mpr rfl,
      (reportsAll_iff (w := w)).mpr rfl, strays_iff.mpr rfl, ?_, rfl⟩
    unfold assetText
    rw [lines_eq (remainder_iff.mpr rfl)]
    simp only [said_eq]

end Verif.Payload
