import Verif.Spec.Payload
import Verif.Proof.Payload
import Verif.Proof.ByteBuffer

/-! # The specification of payloads and the model -/

namespace Verif.Payload
open Verif Verif.Text Verif.Section Verif.Recognition Verif.Spec Verif.Spec.Recognition Verif.Spec.Payload Verif.Props

theorem mapLoop_selected {buf : Bytes} {rs : List ByteBuffer.Range} (h : InSource buf rs) : ∀ acc,
    ByteBuffer.mapLoop buf rs acc = acc ++ selected buf rs := by
  induction rs with
  | nil => intro acc; simp [ByteBuffer.mapLoop, selected]
  | cons r rs ih =>
    intro acc
    rw [ByteBuffer.mapLoop]
    cases rs with
    | nil =>
      have := h.2 r rfl
      split
      · rw [if_pos (by omega)]
        simp only [selected, List.map_cons, List.map_nil, List.flatten_cons, List.flatten_nil, List.append_nil]
        congr 1
        rw [List.take_of_length_le (by simp), List.take_of_length_le (by simp; omega)]
      · simp [ByteBuffer.mapLoop, selected]
    | cons r' rs' =>
      have := h.1 r (by simp)
      rw [if_neg (by omega), ih]
      · simp [selected]
      · refine ⟨fun x hx => h.1 x ?_, fun x hx => h.2 x ?_⟩
        · rw [List.dropLast_cons_of_ne_nil (by simp)]; exact List.mem_cons_of_mem _ hx
        · rw [List.getLast?_cons_cons]; exact hx

theorem mapBytes_selected {buf : Bytes} {rs : List ByteBuffer.Range} (h : InSource buf rs) :
    ByteBuffer.mapBytesRangeSet rs buf = selected buf rs := by
  unfold ByteBuffer.mapBytesRangeSet
  split
  · rename_i he
    have : buf = [] := by simpa using he
    subst this
    symm
    unfold selected
    rw [List.flatten_eq_nil_iff]
    intro l hl
    obtain ⟨r, _, rfl⟩ := List.mem_map.mp hl
    simp
  · rw [mapLoop_selected h]; rfl

theorem content_eq {w : World} {context parent : SectionType} {n : Node} (h : InSource w.source n.sourceMap) :
    (contentAsCodeBlock w context parent n).1 = content w.source n := by
  unfold contentAsCodeBlock content sourceOf
  split
  · rfl
  · exact mapBytes_selected h

theorem mapped_iff {n : Node} : n.mapped ≠ 0 ↔ HasSource n := by
  unfold HasSource Node.mapped
  cases h : n.sourceMap with
  | nil => simp
  | cons r rs => simp

theorem findIdx_append {α : Type} {p : α → Bool} {pre l : List α} {a : α} (h : ∀ x ∈ pre, p x = false) (ha : p a = true) :
    (pre ++ a :: l).findIdx p = pre.length := by
  induction pre with
  | nil => simp [List.findIdx_cons, ha]
  | cons x pre ih =>
    rw [List.cons_append, List.findIdx_cons, h x (by simp), ih (fun y hy => h y (by simp [hy]))]
    rfl

theorem parts_iff {n sig : Node} {blocks : List Node} : Parts n sig blocks ↔ n.kind = .listItem ∧ read n = sig :: blocks := by
  unfold Parts
  refine and_congr_right fun _ => ?_
  have hm : ∀ m : Node, (m.mapped != 0) = true ↔ HasSource m := by
    intro m; rw [← mapped_iff]; simp
  have hmf : ∀ m : Node, ¬ HasSource m → (m.mapped != 0) = false := by
    intro m h; rw [← Bool.not_eq_true, hm]; exact h
  constructor
  · rintro (⟨pre, hc, h1, h2⟩ | ⟨hc, h1⟩)
    · unfold read firstMapped
      simp only
      have : (n.children.findIdx fun n => n.mapped != 0) = pre.length := by
        rw [hc]
        exact findIdx_append (fun x hx => hmf x (h1 x hx)) ((hm sig).mpr h2)
      rw [this, hc, if_pos (by simp)]
      simp
    · unfold read firstMapped
      simp only
      rw [if_neg]
      · rw [hc]; rfl
      · rw [List.findIdx_lt_length]
        rintro ⟨x, hx, h⟩
        exact h1 x hx ((hm x).mp h)
  · intro hr
    unfold read firstMapped at hr
    simp only at hr
    split at hr
    · rename_i hlt
      left
      refine ⟨n.children.take (n.children.findIdx fun n => n.mapped != 0), ?_, ?_, ?_⟩
      · rw [← hr]; exact (List.take_append_drop _ _).symm
      · intro p hp hs
        obtain ⟨i, hi, rfl⟩ := List.mem_take_iff_getElem.mp hp
        have := List.not_of_lt_findIdx (p := fun n : Node => n.mapped != 0) (xs := n.children) (i := i) (by omega)
        rw [(hm _).mpr hs] at this
        simp at this
      · rw [← hm]
        have h1 : n.children[n.children.findIdx fun n => n.mapped != 0]? = some sig := by
          rw [← List.head?_drop, hr]; rfl
        rw [List.getElem?_eq_getElem hlt] at h1
        have := List.findIdx_getElem (p := fun n : Node => n.mapped != 0) (xs := n.children) (w := hlt)
        rw [Option.some.inj h1] at this
        exact this
    · rename_i hge
      right
      rw [List.drop_zero] at hr
      refine ⟨hr, fun p hp hs => hge ?_⟩
      rw [List.findIdx_lt_length]
      exact ⟨p, hp, (hm p).mpr hs⟩

theorem remainder_iff {text rest : Bytes} : Remainder text rest ↔ rest = (getFirstLine text).2 := by
  unfold Remainder getFirstLine
  rcases splitOnFirst_cases (asc '\n') text with ⟨he, h⟩ | ⟨l, r, he, ht, hl⟩
  · rw [he]
    simp only
    constructor
    · rintro (⟨_, h'⟩ | ⟨l, _, h'⟩)
      · exact h'
      · exact absurd (by rw [h']; simp) h
    · intro h'; exact .inl ⟨h, h'⟩
  · rw [he]
    simp only
    constructor
    · rintro (⟨h', _⟩ | ⟨l', h1, h2⟩)
      · exact absurd (by rw [ht]; simp) h'
      · rw [ht] at h2
        exact (append_cons_inj h2 hl h1).2.symm
    · rintro rfl; exact .inr ⟨l, hl, ht⟩

theorem until_iff {P : Node → Prop} {p : Node → Bool} (h : ∀ n, p n = true ↔ ¬ P n) {l pre post : List Node} :
    Until P l pre post ↔ pre = l.takeWhile p ∧ post = l.dropWhile p := by
  unfold Until
  constructor
  · rintro ⟨rfl, h1, h2⟩
    have e1 : (pre ++ post).takeWhile p = pre := by
      rw [List.takeWhile_append_of_pos (fun a ha => (h a).mpr (h1 a ha))]
      cases post with
      | nil => simp
      | cons a l =>
        rw [List.takeWhile_cons_of_neg]
        · simp
        · rw [h]; simpa using h2 a rfl
    have e2 : (pre ++ post).dropWhile p = post := by
      rw [List.dropWhile_append_of_pos (fun a ha => (h a).mpr (h1 a ha))]
      cases post with
      | nil => simp
      | cons a l =>
        rw [List.dropWhile_cons_of_neg]
        rw [h]; simpa using h2 a rfl
    exact ⟨e1.symm, e2.symm⟩
  · rintro ⟨rfl, rfl⟩
    refine ⟨(List.takeWhile_append_dropWhile).symm, ?_, ?_⟩
    · intro n hn; exact (h n).mp (mem_takeWhile_imp hn)
    · intro n hn
      by_cases hp : P n
      · exact hp
      · have := head_dropWhile hn
        rw [(h n).mpr hp] at this
        cases this

theorem plain_iff (n : Node) : plain n = true ↔ ¬ Starts n := by
  unfold plain Starts
  rw [← C77_keyword]
  simp

theorem nested_asset {n : Node} {t : SectionType} (ht : t = .body ∨ t = .schema) :
    payloadNested n = t ↔ recognise.assetType n = t := by
  have ex : assetOf n ≠ .undefined → n.kind = .listItem ∧ n.children ≠ [] → isHeaders n = false := by
    intro h hk
    rw [← Bool.not_eq_true, isHeaders, m_headers]
    rcases asset_iff.mp h with h | h
    · exact not_form (i := .body) h (j := .headers) (by decide)
    · exact not_form (i := .schema) h (j := .headers) (by decide)
  have hr : recognise.assetType n = Recognise.ofList n (assetOf n) := rfl
  rw [hr]
  unfold payloadNested
  simp only [Recognise.first, Recognise.ofList, Recognise.when]
  by_cases hk : n.kind = .listItem ∧ n.children ≠ []
  · simp only [if_pos hk]
    by_cases ha : assetOf n = .undefined
    · rcases ht with rfl | rfl <;> simp only [ha] <;> repeat' split
      all_goals simp_all
    · simp only [ex ha hk]
      simp [ha]
  · simp only [if_neg hk]; rcases ht with rfl | rfl <;> simp

theorem body_iff (n : Node) : payloadNested n = .body ↔ BodyItem n :=
  (nested_asset (.inl rfl)).trans (C77_asset n).1

theorem schema_iff (n : Node) : payloadNested n = .schema ↔ SchemaItem n :=
  (nested_asset (.inr rfl)).trans (C77_asset n).2

theorem textBlock_iff (n : Node) : isText (some n) = true ↔ TextBlock n := by
  simp [isText, TextBlock]

theorem part_not_text {n : Node} (h : PayloadPart n) : ¬ TextBlock n := by
  obtain ⟨hk, _⟩ := nested_item (payloadNested_iff.mpr h)
  unfold TextBlock; rw [hk]; simp

/-! ## Empty lines at the end -/

theorem suffix_one {c : Bytes} {x : UInt8} : [x] <:+ c ↔ c.getLast? = some x := by
  rcases List.eq_nil_or_concat c with rfl | ⟨l, y, rfl⟩
  · simp
  · rw [List.concat_eq_append, List.getLast?_concat]
    constructor
    · rintro ⟨t, ht⟩
      have := congrArg List.getLast? ht
      simpa using this.symm
    · intro h; cases h; exact ⟨l, rfl⟩

theorem suffix_two {c : Bytes} {x : UInt8} : [x, x] <:+ c ↔ c.getLast? = some x ∧ c.dropLast.getLast? = some x := by
  rcases List.eq_nil_or_concat c with rfl | ⟨l, y, rfl⟩
  · simp
  · rw [List.concat_eq_append, List.getLast?_concat, List.dropLast_concat, ← suffix_one]
    constructor
    · rintro ⟨t, ht⟩
      have h : t ++ [x] ++ [x] = l ++ [y] := by simpa using ht
      obtain ⟨h1, h2⟩ := List.append_inj' h rfl
      cases h2
      exact ⟨rfl, t, h1⟩
    · rintro ⟨h, t, rfl⟩; cases h; exact ⟨t, by simp⟩

theorem twoNewLines_closed {c r : Bytes} (h : twoNewLines c = some r) : r = closed c := by
  unfold twoNewLines at h
  unfold closed
  simp only [suffix_one, suffix_two]
  cases hc : c.getLast? with
  | none => rw [hc] at h; cases h
  | some x =>
    rw [hc] at h
    by_cases hx : x = asc '\n'
    · subst hx
      simp only [ne_eq, not_true_eq_false, if_false] at h
      cases hd : c.dropLast.getLast? with
      | none => rw [hd] at h; cases h
      | some y =>
        rw [hd] at h
        by_cases hy : y = asc '\n'
        · subst hy; simp at h; simp [← h]
        · simp [hy] at h; simp [hy, ← h]
    · simp only [ne_eq, hx, not_false_eq_true, if_true, List.dropLast_concat, hc, Option.some.injEq] at h
      simp [hx, ← h]

theorem twoNewLines_none {c : Bytes} : twoNewLines c = none ↔ c = [] ∨ c = [asc '\n'] := by
  unfold twoNewLines
  rcases List.eq_nil_or_concat c with rfl | ⟨l, y, rfl⟩
  · simp
  · rw [List.concat_eq_append, List.getLast?_concat]
    by_cases hx : y = asc '\n'
    · subst hx
      simp only [ne_eq, not_true_eq_false, if_false, List.dropLast_concat]
      cases hd : l.getLast? with
      | none => simp_all
      | some y => cases l <;> simp_all
    · simp only [ne_eq, hx, not_false_eq_true, if_true, List.dropLast_concat, List.getLast?_concat]
      cases l <;> simp [hx]

end Verif.Payload
