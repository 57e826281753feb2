import Verif.Proof.MsonContent
import Verif.Proof.SignatureParts

/-! # The first lines of members -/

namespace Verif.MsonParser
open Verif Verif.Text Verif.Section Verif.Recognition Verif.Spec Verif.Spec.MsonParser Verif.Props Verif.Signature
open Verif.Mson (Base TypeDef Context)
open Verif.DataStructure (Klass Element NamedType)

theorem trimmed_iff {l s : Bytes} : Trimmed l s ↔ s = trim l := ⟨fun h => (trim_unique h).symm, fun h => h ▸ trim_spec _⟩

theorem under_iff {rest : Bytes} {ss : List TypeSection} : Under rest ss ↔ ss = remaining rest [] := by
  unfold remaining
  cases rest with
  | nil =>
    constructor
    · intro h; cases h with
      | nothing => rfl
      | text h => exact absurd rfl h
    · rintro rfl; exact .nothing
  | cons c r =>
    constructor
    · intro h; cases h; rfl
    · rintro rfl; exact .text (by simp)

theorem under_cases {rest : Bytes} : remaining rest [] = [] ∨ ∃ d, remaining rest [] = [description d] := by
  unfold remaining
  split
  · exact .inl rfl
  · exact .inr ⟨rest, rfl⟩

theorem signatureOf_iff {t : Traits} {line rest : Bytes} {sig : Signature} {ws : List Warning} (hu : SignatureLine.Usual t) :
    signatureOf t line rest = .ok (sig, ws) ↔ ∃ s, SignatureLine.SignatureLine t line s ws ∧ sig = { s with remainingContent := rest } := by
  simp only [Verif.SignatureLine.signature_iff hu]
  unfold signatureOf
  cases parseSignature t line with
  | error e => cases e <;> simp
  | ok s =>
    constructor
    · intro h; cases h; exact ⟨s, ⟨rfl, rfl⟩, rfl⟩
    · rintro ⟨_, ⟨h, rfl⟩, rfl⟩; cases h; rfl

theorem opening_iff {w : World} {n : Node} {line rest : Bytes} : Opening w n line rest ↔
    (n.kind = .header ∧ w.header n ≠ []) ∧ line = w.header n ∧ rest = [] ∨
    ¬ (n.kind = .header ∧ w.header n ≠ []) ∧ line = trim (getFirstLine n.text).1 ∧ rest = (getFirstLine n.text).2 := by
  constructor
  · intro h
    cases h with
    | header h1 h2 => exact .inl ⟨⟨h1, h2⟩, rfl, rfl⟩
    | text h0 h1 h2 h3 =>
      rw [firstLine_iff] at h1; subst h1
      exact .inr ⟨h0, trimmed_iff.mp h2, Payload.remainder_iff.mp h3⟩
  · rintro (⟨h, rfl, rfl⟩ | ⟨h, rfl, rfl⟩)
    · exact .header h.1 h.2
    · exact .text h (firstLine_iff.mpr rfl) (trimmed_iff.mpr rfl) (Payload.remainder_iff.mpr rfl)

theorem readMember_iff {w : World} {t : Traits} {n : Node} {sig : Signature} {ws : List Warning} (hu : SignatureLine.Usual t) :
    readMember w t n = .ok (sig, ws) ↔ ∃ line rest s, Opening w n line rest ∧ SignatureLine.SignatureLine t line s ws ∧
      sig = { s with remainingContent := rest } := by
  unfold readMember
  simp only [opening_iff]
  by_cases h : n.kind = .header ∧ w.header n ≠ []
  · rw [if_pos h, signatureOf_iff hu]
    constructor
    · rintro ⟨s, h1, h2⟩; exact ⟨_, _, s, .inl ⟨h, rfl, rfl⟩, h1, h2⟩
    · rintro ⟨_, _, s, ⟨_, rfl, rfl⟩ | ⟨h', _⟩, h1, h2⟩
      · exact ⟨s, h1, h2⟩
      · exact absurd h h'
  · rw [if_neg h, readSignature, signatureOf_iff hu]
    constructor
    · rintro ⟨s, h1, h2⟩; exact ⟨_, _, s, .inr ⟨h, rfl, rfl⟩, h1, h2⟩
    · rintro ⟨_, _, s, ⟨h', _⟩ | ⟨_, rfl, rfl⟩, h1, h2⟩
      · exact absurd h' h
      · exact ⟨s, h1, h2⟩

theorem valueLine_iff {w : World} {n : Node} {types : Context} {v : Out ValueNode} :
    valueSignature w n ⟨[], {}, types, []⟩ = .ok v ↔ ValueLine w n types v := by
  unfold valueSignature ValueLine
  constructor
  · intro h
    split at h
    · cases h
    · rename_i sig ws hr
      obtain ⟨line, rest, s, ho, hs, rfl⟩ := (readMember_iff (by decide)).mp hr
      cases h
      exact ⟨line, rest, s, ws, ho, hs, rfl, rfl, under_iff.mpr rfl, rfl, rfl⟩
  · rintro ⟨line, rest, s, sw, ho, hs, h1, h2, h3, h4, h5⟩
    rw [(readMember_iff (by decide)).mpr ⟨line, rest, s, ho, hs, rfl⟩]
    obtain ⟨⟨d, df, ss⟩, t, ws⟩ := v
    simp only at h1 h2 h3 h4 h5
    subst h1 h2 h4 h5
    rw [under_iff.mp h3]
    rfl

theorem propertyLine_iff {w : World} {n : Node} {types : Context} {v : Out PropertyNode} :
    propertySignature w n ⟨[], {}, types, []⟩ = .ok v ↔ PropertyLine w n types v := by
  unfold propertySignature PropertyLine
  constructor
  · intro h
    split at h
    · cases h
    · rename_i sig ws hr
      obtain ⟨line, rest, s, ho, hs, rfl⟩ := (readMember_iff (by decide)).mp hr
      simp only at h
      split at h
      · cases h
      · cases h
      · rename_i name types' ws' hp
        cases h
        exact ⟨line, rest, s, ws, _, _, types', ws', ho, hs, firstLine_iff.mpr rfl, trimmed_iff.mpr rfl, hp, rfl, rfl, under_iff.mpr rfl, rfl, rfl⟩
  · rintro ⟨line, rest, s, sw, l, own, types', ws', ho, hs, hl, hw, hp, h1, h2, h3, h4, h5⟩
    rw [firstLine_iff] at hl; subst hl
    rw [trimmed_iff] at hw; subst hw
    rw [(readMember_iff (by decide)).mpr ⟨line, rest, s, ho, hs, rfl⟩]
    obtain ⟨⟨⟨d, df, ss⟩, name⟩, t, ws⟩ := v
    simp only at h1 h2 h3 h4 h5 hp ⊢
    subst h1 h2 h4 h5
    rw [hp, under_iff.mp h3]
    rfl

theorem attributesLine_iff {n : Node} {types : Context} {v : Out NamedType} :
    attributesSignature n ⟨[], {}, types, []⟩ = .ok v ↔ AttributesLine n types v := by
  unfold attributesSignature AttributesLine
  constructor
  · intro h
    split at h
    · cases h
    · rename_i sig ws hr
      obtain ⟨s, hs, rfl⟩ := (signatureOf_iff (by decide)).mp hr
      cases h
      exact ⟨_, _, _, s, ws, firstLine_iff.mpr rfl, trimmed_iff.mpr rfl, Payload.remainder_iff.mpr rfl, hs, rfl, under_iff.mpr rfl, rfl, rfl⟩
  · rintro ⟨l, line, rest, s, sw, hl, hw, hr, hs, h1, h3, h4, h5⟩
    rw [firstLine_iff] at hl; subst hl
    rw [trimmed_iff] at hw; subst hw
    rw [Payload.remainder_iff] at hr; subst hr
    rw [readSignature, (signatureOf_iff (by decide)).mpr ⟨s, hs, rfl⟩]
    obtain ⟨v, t, ws⟩ := v
    simp only at h1 h3 h4 h5 ⊢
    subst h4 h5
    rw [h1, under_iff.mp h3]
    rfl

theorem finally_iff {b b' : Base} : Finally b b' ↔ b' = finalBase b := by
  unfold finalBase
  constructor
  · intro h; cases h with
    | given h => rw [if_neg h]
    | text => rfl
  · rintro rfl
    split
    · rename_i h; subst h; exact .text
    · exact .given ‹_›

end Verif.MsonParser
