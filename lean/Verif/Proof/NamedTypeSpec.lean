import Verif.Proof.NamedType

/-! # Named types: what they are made of -/

namespace Verif.MsonParser
open Verif Verif.Text Verif.Section Verif.Recognition Verif.Spec Verif.Spec.MsonParser
open Verif.Mson (Base TypeDef Context)
open Verif.DataStructure (NamedType)

theorem partUntil_iff {w : World} {t : SectionType} (ht : Known t) : ∀ {ns rest : List Node} {d : Draft} {types : Context} {o : Out Draft},
    walk (typeSectionStep w (meaning w) t) ns ⟨d, types, []⟩ = .ok (rest, o) ↔
      ∃ v es types' ws, PartUntil w t d.base d.value d.elements types ns v es types' ws rest ∧
        o = ⟨{ d with value := v, elements := es }, types', ws⟩
  | [], rest, d, types, o => by
    simp only [walk, Except.ok.injEq, Prod.mk.injEq]
    constructor
    · rintro ⟨rfl, rfl⟩; exact ⟨_, _, _, _, .done, rfl⟩
    · rintro ⟨v, es, types', ws, h, rfl⟩; cases h; exact ⟨rfl, rfl⟩
  | n :: ns, rest, d, types, o => by
    simp only [walk]
    constructor
    · intro h
      split at h
      · cases h
      · rename_i o₁ h1
        obtain ⟨d₁, types₁, ws₁⟩ := o₁
        rw [walk_frame (typeSectionStep_frame w (meaning w) t)] at h
        cases hw : walk (typeSectionStep w (meaning w) t) ns ⟨d₁, types₁, []⟩ with
        | error e => rw [hw] at h; cases h
        | ok q =>
          obtain ⟨r, o₂⟩ := q
          rw [hw] at h; cases h
          obtain ⟨v, es, types', ws, hb, rfl⟩ := (partUntil_iff ht).mp hw
          rcases (partStep_iff ht).mp h1 with ⟨_, ⟨e, types', ws', hg, he⟩ | ⟨h2, h3, h4, v', h5, he⟩⟩ | ⟨hf, _⟩
          · cases he
            exact ⟨_, _, _, _, .element hg hb, rfl⟩
          · cases he
            exact ⟨_, _, _, _, .text h2 h3 h4 h5 hb, by simp [after]⟩
          · cases hf
      · rename_i o₁ h1
        cases h
        rcases (partStep_iff ht).mp h1 with ⟨hf, _⟩ | ⟨_, ws, hc, rfl⟩
        · cases hf
        · exact ⟨_, _, _, _, .closes hc, rfl⟩
    · rintro ⟨v, es, types', ws, h, rfl⟩
      cases h with
      | element hg hb =>
        rw [(partStep_iff ht).mpr (.inl ⟨rfl, .inl ⟨_, _, _, hg, rfl⟩⟩)]
        have hr := (partUntil_iff ht (d := { d with elements := d.elements ++ [_] })).mpr ⟨_, _, _, _, hb, rfl⟩
        simp only
        rw [walk_frame (typeSectionStep_frame w (meaning w) t), hr]
        rfl
      | text h2 h3 h4 h5 hb =>
        rw [(partStep_iff ht).mpr (.inl ⟨rfl, .inr ⟨h2, h3, h4, _, h5, rfl⟩⟩)]
        exact (partUntil_iff ht (d := { d with value := _ })).mpr ⟨_, _, _, _, hb, rfl⟩
      | closes hc =>
        rw [(partStep_iff ht).mpr (.inr ⟨rfl, _, hc, rfl⟩)]

theorem headingOf_header {n : Node} {t : SectionType} (h : HeadingOf n t) : n.kind = .header := by cases h <;> assumption

theorem headingOf_known {n : Node} {t : SectionType} (h : HeadingOf n t) : Known t := by
  cases h
  · exact .inr (.inr rfl)
  · exact .inr (.inl rfl)
  · exact .inl rfl

theorem headingOf_ne {n : Node} {t : SectionType} (h : HeadingOf n t) : t ≠ .undefined := by cases h <;> decide

theorem headingOf_type {n : Node} {t : SectionType} (h : HeadingOf n t) : recognise.typeSectionType n = t :=
  (headingOf_iff (headingOf_header h) (headingOf_ne h)).mpr h

theorem headed_iff {w : World} {t : SectionType} {b : Base} {n : Node} {ns r : List Node} {types : Context} {x : Out Draft} (ht : HeadingOf n t) :
    headed w (meaning w) t b n ns types = .ok (r, x) ↔
      (∃ line under sig sw, Signed typeSectionTraits n line under sig sw ∧ Misplaced b sig.identifier ∧ r = n :: ns ∧
        x = ⟨{ base := b }, types, sw ++ [.notAllowed sig.identifier]⟩) ∨
      (r.length ≤ ns.length ∧ Headed w b n types ns x.node x.types x.warnings r) := by
  have hbase : ∀ {s rest d hs}, Heading b s rest d hs → d.base = b := by intro s rest d hs h; cases h <;> rfl
  have hkn := headingOf_known ht
  unfold headed
  rw [head_simple]
  constructor
  · intro h
    split at h
    · cases h
    · rename_i d h1
      obtain ⟨line, rest, s, sw, hs, ⟨_, hm, rfl⟩ | ⟨hf, _⟩⟩ := sign_iff.mp h1
      · cases h; exact .inl ⟨line, rest, s, sw, hs, hm, rfl, rfl⟩
      · cases hf
    · rename_i d h1
      obtain ⟨line, rest, s, sw, hs, ⟨hf, _⟩ | ⟨_, d, hs', hh, rfl⟩⟩ := sign_iff.mp h1
      · cases hf
      · have hl := walk_length h
        rw [walk_frame (typeSectionStep_frame w (meaning w) t)] at h
        cases hw : walk (typeSectionStep w (meaning w) t) ns ⟨d, types, []⟩ with
        | error e => rw [hw] at h; cases h
        | ok q =>
          obtain ⟨r', o₃⟩ := q
          rw [hw] at h; cases h
          obtain ⟨v, es, types', ws, hb, rfl⟩ := (partUntil_iff hkn).mp hw
          rw [hbase hh] at hb
          exact .inr ⟨hl, .mk ht hs hh hb⟩
  · rintro (⟨line, under, sig, sw, hs, hm, rfl, rfl⟩ | ⟨_, h⟩)
    · rw [sign_iff.mpr ⟨line, under, sig, sw, hs, .inl ⟨rfl, hm, rfl⟩⟩]
    · obtain ⟨xd, xt, xw⟩ := x
      simp only at h
      cases h with
      | mk ht' hs hh hb =>
        have e := (headingOf_type ht).symm.trans (headingOf_type ht')
        subst e
        rw [sign_iff.mpr ⟨_, _, _, _, hs, .inr ⟨rfl, _, _, hh, rfl⟩⟩]
        simp only
        rw [← hbase hh] at hb
        rw [walk_frame (typeSectionStep_frame w (meaning w) _), (partUntil_iff hkn).mpr ⟨_, _, _, _, hb, rfl⟩]
        rfl

theorem headed_klass {w : World} {b : Base} {n : Node} {ns r : List Node} {types types' : Context} {d : Draft} {ws : List Warning}
    (h : Headed w b n types ns d types' ws r) : d.klass ≠ .description := by
  cases h with
  | mk _ _ hh _ =>
    have hn : ∀ {word k}, Named b word k → k ≠ .description := by intro word k h; cases h <;> decide
    cases hh with
    | text h => exact hn h
    | list h => exact hn h
    | object h => exact hn h
    | valued h => exact hn h
    | other h => exact hn h
    | members h => exact hn h
    | unknown => intro h; cases h

theorem appends_iff {ss ss' : List TypeSection} {d : Draft} : Appends ss d ss' ↔ ss' = if d.klass ≠ .undefined then ss ++ [d.made] else ss := by
  constructor
  · intro h
    cases h with
    | known h => rw [if_pos h]
    | unknown h => rw [if_neg (by simp [h])]
  · intro h
    by_cases hk : d.klass = .undefined
    · rw [if_neg (by simp [hk])] at h; subst h; exact .unknown hk
    · rw [if_pos hk] at h; subst h; exact .known hk

theorem resolve_known {n : Node} {t : SectionType} {b : Base} (h : b ≠ .undefined) : resolveBase n t b = b := by
  unfold resolveBase; rw [if_pos h]

theorem settles_known {b b' : Base} {n : Node} (h : b ≠ .undefined) : Settles b n b' ↔ b' = b := by
  constructor
  · intro hs
    cases hs with
    | known => rfl
    | object hb => exact absurd hb h
    | sample hb => exact absurd hb h
    | items hb => exact absurd hb h
    | text hb => exact absurd hb h
  · rintro rfl; exact .known h

theorem untyped_not {n : Node} (h : recognise.typeSectionType n = .undefined) : (¬ ∃ t, IsPart n t) ∧ ¬ IsHeading n ∧ ∀ t, ¬ HeadingOf n t := by
  refine ⟨?_, ?_, ?_⟩
  · rintro ⟨t, ht⟩
    exact (part_ne ht).1 (((part_iff (part_item ht) (part_ne ht).1).mpr ht).symm.trans h)
  · intro hh; exact (heading_iff hh.1).mpr hh h
  · intro t ht; exact headingOf_ne ht ((headingOf_type ht).symm.trans h)

/-- How a type section is written. -/
theorem typed_kind {n : Node} (h : recognise.typeSectionType n ≠ .undefined) :
    HeadingOf n (recognise.typeSectionType n) ∨ (n.kind ≠ .header ∧ ∃ t, IsPart n t) := by
  by_cases hk : n.kind = .header
  · exact .inl ((headingOf_iff hk h).mp rfl)
  · refine .inr ⟨hk, part_some ?_ h⟩
    unfold Recognise.typeSectionType at h
    split at h
    · rename_i hx
      rcases hx with hx | hx
      · exact absurd hx.1 hk
      · exact hx.1
    · exact absurd rfl h

theorem part_halts {b : Base} {n : Node} {t : SectionType} {p : Piece} {ws : List Warning} (h : IsPart n t) : ¬ Halts b n p ws := by
  intro hh
  cases hh with
  | header h1 => exact (part_not h).2.2.2.2 h1
  | oneOf h1 => exact (part_not h).2.2.1 h1
  | scalar h1 => exact h1.elim (part_not h).1 (part_not h).2.2.2.1

theorem heading_halts {b : Base} {n : Node} {t : SectionType} {p : Piece} {ws : List Warning} (h : HeadingOf n t) : ¬ Halts b n p ws := by
  intro hh
  exact (halts_nothing (headingOf_header h) hh).2.2 ((heading_iff (headingOf_header h)).mp (by rw [headingOf_type h]; exact headingOf_ne h))

theorem heading_adds {w : World} {b : Base} {n : Node} {types types' : Context} {p : Piece} {ws : List Warning} (h : n.kind = .header) :
    ¬ Adds w b n types p types' ws := by
  intro ha
  cases ha with
  | property hp => exact (plain_not hp).2.2.2.2 h
  | value hp => exact (plain_not hp).2.2.2.2 h
  | include_ hp => exact (include_not hp).2.2.2.2 h
  | mismatch hp => exact (include_not hp).2.2.2.2 h
  | oneOf hp => exact (oneOf_not hp).2.2.2.2 h
  | part hp => exact (part_not hp).2.2.2.2 h
  | ignored hp => exact (part_not hp).2.2.2.2 h
  | text hp => exact hp.1 h

theorem typeBlocks_iff {w : World} {b : Base} (hb : b ≠ .undefined) : ∀ {fuel : Nat} {ns : List Node} {ss : List TypeSection} {types : Context}
    {rest : List Node} {o : Out Body}, ns.length ≤ fuel → Apt ss →
    (many (typeStep w (meaning w) (meaning w)) fuel ns ⟨⟨ss, b⟩, types, []⟩ = .ok (rest, o) ↔
      o.node.base = b ∧ TypeBlocks w b ss types ns o.node.sections o.types o.warnings rest)
  | fuel, [], ss, types, rest, ⟨⟨ss', b'⟩, types', ws⟩, hl, ha => by
    rw [many]
    constructor
    · intro h; cases h; exact ⟨rfl, .done⟩
    · rintro ⟨h0, h⟩; simp only at h0 h; subst h0; cases h; rfl
  | 0, n :: ns, ss, types, rest, o, hl, ha => by simp at hl
  | fuel + 1, n :: ns, ss, types, rest, ⟨⟨ss', b'⟩, types', ws⟩, hl, ha => by
    rw [List.length_cons] at hl
    have ih : ∀ {ms : List Node} {ss₁ : List TypeSection} {types₁ : Context} {r : List Node} {ss₂ : List TypeSection} {b₂ : Base} {types₂ : Context} {v : List Warning},
        ms.length ≤ fuel → Apt ss₁ →
        (many (typeStep w (meaning w) (meaning w)) fuel ms ⟨⟨ss₁, b⟩, types₁, []⟩ = .ok (r, ⟨⟨ss₂, b₂⟩, types₂, v⟩) ↔
          b₂ = b ∧ TypeBlocks w b ss₁ types₁ ms ss₂ types₂ v r) := fun {ms ss₁ types₁ r ss₂ b₂ types₂ v} h1 h2 =>
      typeBlocks_iff hb (o := ⟨⟨ss₂, b₂⟩, types₂, v⟩) h1 h2
    -- one more step
    have go : ∀ {ms : List Node} {ss₁ : List TypeSection} {types₁ : Context} {v : List Warning}, ms.length ≤ fuel → Apt ss₁ →
        (many (typeStep w (meaning w) (meaning w)) fuel ms ⟨⟨ss₁, b⟩, types₁, v⟩ = .ok (rest, ⟨⟨ss', b'⟩, types', ws⟩) ↔
          b' = b ∧ ∃ vs, ws = v ++ vs ∧ TypeBlocks w b ss₁ types₁ ms ss' types' vs rest) := by
      intro ms ss₁ types₁ v h1 h2
      rw [many_frame (typeStep_frame w _ _)]
      constructor
      · intro h
        cases hy : many (typeStep w (meaning w) (meaning w)) fuel ms ⟨⟨ss₁, b⟩, types₁, []⟩ with
        | error e => rw [hy] at h; cases h
        | ok q =>
          obtain ⟨r, ⟨ss₂, b₂⟩, types₂, ws₂⟩ := q
          rw [hy] at h
          obtain ⟨h3, h4⟩ := (ih h1 h2).mp hy
          cases h
          exact ⟨h3, _, rfl, h4⟩
      · rintro ⟨h3, vs, rfl, h4⟩
        rw [(ih h1 h2).mpr ⟨h3, h4⟩]
        rfl
    rw [many]
    simp only
    by_cases hu : recognise.typeSectionType n = .undefined
    · obtain ⟨hnp, hnh, hno⟩ := untyped_not hu
      rw [typeStep, if_pos hu, single]
      by_cases hs : Open ss
      · constructor
        · intro h
          cases hm : memberStep w (meaning w) n ⟨⟨ss, b⟩, types, []⟩ with
          | error e => rw [hm] at h; cases h
          | ok q =>
            obtain ⟨c, ⟨ss₁, b₁⟩, types₁, ws₁⟩ := q
            rw [hm] at h
            cases c with
            | true =>
              simp only [if_true] at h
              obtain ⟨p, h1, hadd, hj⟩ := (step_true ha.1 (.inl hs)).mp hm
              rw [(settles_known hb).mp h1] at h hadd
              obtain ⟨h3, vs, rfl, h4⟩ := (go (by omega) (adds_apt hadd hj ha)).mp h
              exact ⟨h3, .member hs hnp hadd hj h4⟩
            | false =>
              simp only [Bool.false_eq_true, if_false] at h
              obtain ⟨rfl, p, h1, hh, hj⟩ := (step_false ha.1 (.inl hs)).mp hm
              have hb1 : b₁ = b := h1.elim And.right (settles_known hb).mp
              cases h
              rw [hb1] at hh
              exact ⟨hb1, .halt (.inl hs) hh hj⟩
        · rintro ⟨rfl, h⟩
          cases h with
          | member _ _ hadd hj hr =>
            rw [(step_true ha.1 (.inl hs)).mpr ⟨_, .known hb, hadd, hj⟩]
            exact (go (by omega) (adds_apt hadd hj ha)).mpr ⟨rfl, _, rfl, hr⟩
          | describe => exact absurd hs (not_open _)
          | heading hd => cases hd with | mk ht => exact absurd ht (hno _)
          | misplaced ht => exact absurd ht (hno _)
          | halt _ hh hj =>
            rw [(step_false ha.1 (.inl hs)).mpr ⟨rfl, _, .inr (.known hb), hh, hj⟩]
            rfl
      · obtain ⟨d, rfl⟩ := ha.2.resolve_left hs
        by_cases hh : n.kind = .header
        · rw [step_header w _ hh hnh]
          constructor
          · intro h; cases h
            exact ⟨rfl, .halt (.inr hh) (.header hh hnh) .nothing⟩
          · rintro ⟨rfl, h⟩
            cases h with
            | member h0 => exact absurd h0 hs
            | describe h0 => exact absurd hh h0
            | heading hd => cases hd with | mk ht => exact absurd ht (hno _)
            | misplaced ht => exact absurd ht (hno _)
            | halt _ h1 hj =>
              obtain ⟨rfl, rfl, _⟩ := halts_nothing hh h1
              rw [joins_nothing.mp hj]
              rfl
        · rw [step_describe hh hnp]
          constructor
          · intro h
            cases hbd : blockDescription w n [description d] with
            | error e => rw [hbd] at h; cases h
            | ok r =>
              obtain ⟨s, d', h1, h2, rfl⟩ := (block_description w n d).mp hbd
              rw [hbd] at h
              obtain ⟨h3, h4⟩ := (ih (by omega) (apt_description d')).mp h
              exact ⟨h3, .describe hh hnp h1 h2 h4⟩
          · rintro ⟨rfl, h⟩
            cases h with
            | member h0 => exact absurd h0 hs
            | describe _ _ h1 h2 hr =>
              rw [(block_description w n _).mpr ⟨_, _, h1, h2, rfl⟩]
              exact (ih (by omega) (apt_description _)).mpr ⟨rfl, hr⟩
            | heading hd => cases hd with | mk ht => exact absurd ht (hno _)
            | misplaced ht => exact absurd ht (hno _)
            | halt h0 =>
              rcases h0 with h0 | h0
              · exact absurd h0 hs
              · exact absurd h0 hh
    · rw [typeStep, if_neg hu]
      rcases typed_kind hu with ht | ⟨hk, t, ht⟩
      · have hh := headingOf_header ht
        rw [if_pos hh]
        simp only [resolve_known hb]
        constructor
        · intro h
          cases hx : headed w (meaning w) (recognise.typeSectionType n) b n ns types with
          | error e => rw [hx] at h; cases h
          | ok q =>
            obtain ⟨r, x⟩ := q
            rw [hx] at h
            rcases (headed_iff ht).mp hx with ⟨line, under, sig, sw, hs, hm, rfl, rfl⟩ | ⟨hle, hd⟩
            · simp only [List.length_cons, Nat.not_succ_le_self, if_false, addSection, ne_eq, not_true_eq_false] at h
              cases h
              exact ⟨rfl, .misplaced ht hs hm⟩
            · obtain ⟨d, types₁, ws₁⟩ := x
              simp only [if_pos hle, addSection, List.nil_append] at h hd
              have hkd := headed_klass hd
              by_cases hkl : d.klass = .undefined
              · rw [if_neg (by simp [hkl])] at h
                obtain ⟨h3, vs, rfl, h4⟩ := (go (by omega) ha).mp h
                exact ⟨h3, .heading hd (.unknown hkl) h4⟩
              · rw [if_pos hkl] at h
                have hap := neat_section ha.1 hkd
                obtain ⟨h3, vs, rfl, h4⟩ := (go (by omega) ⟨hap.1, .inl hap.2⟩).mp h
                exact ⟨h3, .heading hd (.known hkl) h4⟩
        · rintro ⟨rfl, h⟩
          cases h with
          | member _ _ hadd => exact absurd hadd (heading_adds hh)
          | describe h0 => exact absurd hh h0
          | halt _ h1 => exact absurd h1 (heading_halts ht)
          | @misplaced _ _ _ _ _ line under sig sw ht' hs hm =>
            rw [(headed_iff ht).mpr (.inl ⟨line, under, sig, sw, hs, hm, rfl, rfl⟩)]
            simp only [List.length_cons, Nat.not_succ_le_self, if_false, addSection, ne_eq, not_true_eq_false]
            rfl
          | @heading _ _ _ _ d types₁ ws₁ ns₁ _ _ _ vs _ hd hap hr =>
            have hle : ns₁.length ≤ ns.length := by
              cases hd with
              | mk ht' hs hhd hpu =>
                have hbase : ∀ {s rest d hs}, Heading b' s rest d hs → d.base = b' := by intro s rest d hs h; cases h <;> rfl
                rw [← hbase hhd] at hpu
                exact walk_length ((partUntil_iff (headingOf_known ht')).mpr ⟨_, _, _, _, hpu, rfl⟩)
            rw [(headed_iff (x := ⟨d, types₁, ws₁⟩) ht).mpr (.inr ⟨hle, hd⟩)]
            have hkd := headed_klass hd
            simp only [if_pos hle, addSection, List.nil_append]
            rw [appends_iff.mp hap] at hr
            by_cases hkl : d.klass = .undefined
            · rw [if_neg (by simp [hkl])] at hr ⊢
              exact (go (by omega) ha).mpr ⟨rfl, _, rfl, hr⟩
            · rw [if_pos hkl] at hr ⊢
              have hap' := neat_section ha.1 hkd
              exact (go (by omega) ⟨hap'.1, .inl hap'.2⟩).mpr ⟨rfl, _, rfl, hr⟩
      · rw [if_neg hk]
        constructor
        · intro h; cases h
        · rintro ⟨_, h⟩
          cases h with
          | member _ h0 => exact absurd ⟨t, ht⟩ h0
          | describe _ h0 => exact absurd ⟨t, ht⟩ h0
          | heading hd => cases hd with | mk ht' => exact absurd (headingOf_header ht') hk
          | misplaced ht' => exact absurd (headingOf_header ht') hk
          | halt _ h1 => exact absurd h1 (part_halts ht)

/-! ## All blocks after the header -/

theorem typeStep_describe {w : World} {n : Node} (h : IsText n) (d : Bytes) (b : Base) (types : Context) (ns : List Node) :
    typeStep w (meaning w) (meaning w) n ns ⟨⟨[description d], b⟩, types, []⟩ =
      match describe w n ⟨⟨[description d], b⟩, types, []⟩ with
      | .error e => .error e
      | .ok (c, o) => .ok (if c then some ns else none, o) := by
  have hu : recognise.typeSectionType n = .undefined := by
    by_cases hu : recognise.typeSectionType n = .undefined
    · exact hu
    · rcases typed_kind hu with ht | ⟨_, t, ht⟩
      · exact absurd (headingOf_header ht) h.1
      · exact absurd h (part_not ht).2.2.2.1
  rw [typeStep, if_pos hu, single, describe_step (R := meaning w) h]
  cases memberStep w (meaning w) n ⟨⟨[description d], b⟩, types, []⟩ <;> rfl

theorem many_fuel {σ : Type} {F : Node → List Node → σ → Except Stop (Option (List Node) × σ)} (hF : Suffixes F) : ∀ {f g : Nat} {ns : List Node} {d : σ},
    ns.length ≤ f → ns.length ≤ g → many F f ns d = many F g ns d
  | _, _, [], d, _, _ => by rw [many, many]
  | 0, _, n :: ns, d, h, _ => by simp at h
  | _, 0, n :: ns, d, _, h => by simp at h
  | f + 1, g + 1, n :: ns, d, h, h' => by
    rw [List.length_cons] at h h'
    rw [many, many]
    cases hf : F n ns d with
    | error e => rfl
    | ok q =>
      obtain ⟨b, d'⟩ := q
      cases b with
      | none => rfl
      | some r =>
        have hs := (hF _ _ _ _ _ hf).length_le
        exact many_fuel hF (by omega) (by omega)

/-- Description blocks, then the others. -/
def typeContent (w : World) (blocks : List Node) (o : Out Body) : Except Stop (List Node × Out Body) :=
  match walk (describe w) (blocks.takeWhile memberDescription) o with
  | .error e => .error e
  | .ok (r :: rs, d) => .ok (r :: rs ++ blocks.dropWhile memberDescription, d)
  | .ok ([], d) => many (typeStep w (meaning w) (meaning w)) (blocks.dropWhile memberDescription).length (blocks.dropWhile memberDescription) d

theorem typeContent_description (w : World) : ∀ (ns : List Node) (d : Bytes) (b : Base) (types : Context),
    typeContent w ns ⟨⟨[description d], b⟩, types, []⟩ =
      many (typeStep w (meaning w) (meaning w)) ns.length ns ⟨⟨[description d], b⟩, types, []⟩
  | [], d, b, types => rfl
  | n :: ns, d, b, types => by
    by_cases h : IsText n
    · have hd := (description_iff n).mpr h
      unfold typeContent
      rw [List.takeWhile_cons_of_pos hd, List.dropWhile_cons_of_pos hd, walk, List.length_cons, many, typeStep_describe h]
      unfold describe
      simp only
      cases hb : blockDescription w n [description d] with
      | error e => rfl
      | ok r =>
        obtain ⟨s, d', h1, h2, rfl⟩ := (block_description w n d).mp hb
        have := typeContent_description w ns d' b types
        unfold typeContent at this
        exact this
    · have hd : ¬ memberDescription n = true := fun h' => h ((description_iff n).mp h')
      unfold typeContent
      rw [List.takeWhile_cons_of_neg hd, List.dropWhile_cons_of_neg hd]
      rfl

theorem typeContent_iff {w : World} {ns rest : List Node} {b : Base} (hb : b ≠ .undefined) {types : Context} {o : Out Body} :
    typeContent w ns ⟨⟨[], b⟩, types, []⟩ = .ok (rest, o) ↔
      o.node.base = b ∧ TypeContent w b types ns o.node.sections o.types o.warnings rest := by
  by_cases ht : ∃ n ns', ns = n :: ns' ∧ IsText n
  · obtain ⟨n, ns, rfl, ht⟩ := ht
    have hd := (description_iff n).mpr ht
    have e : typeContent w (n :: ns) ⟨⟨[], b⟩, types, []⟩ = typeContent w ns ⟨⟨[description (trim (sourceOf w n))], b⟩, types, []⟩ := by
      unfold typeContent
      rw [List.takeWhile_cons_of_pos hd, List.dropWhile_cons_of_pos hd, walk]
      rfl
    rw [e, typeContent_description, typeBlocks_iff hb (Nat.le_refl _) (apt_description _)]
    refine and_congr_right fun _ => ?_
    constructor
    · intro h; exact .text ht (source_iff.mpr rfl) h
    · intro h
      generalize h1 : n :: ns = l at h
      cases h with
      | blocks h0 => subst h1; exact absurd ht (h0 n rfl)
      | text _ hs hr => cases h1; rw [source_iff.mp hs] at hr; exact hr
  · have e : typeContent w ns ⟨⟨[], b⟩, types, []⟩ = many (typeStep w (meaning w) (meaning w)) ns.length ns ⟨⟨[], b⟩, types, []⟩ := by
      unfold typeContent
      cases ns with
      | nil => rfl
      | cons n ns =>
        have hd : ¬ memberDescription n = true := fun h' => ht ⟨n, ns, rfl, (description_iff n).mp h'⟩
        rw [List.takeWhile_cons_of_neg hd, List.dropWhile_cons_of_neg hd]
        rfl
    rw [e, typeBlocks_iff hb (Nat.le_refl _) apt_nil]
    refine and_congr_right fun _ => ?_
    constructor
    · intro h
      refine .blocks ?_ h
      intro n hn hx
      cases ns with
      | nil => cases hn
      | cons m ns => cases hn; exact ht ⟨_, _, rfl, hx⟩
    · intro h
      cases h with
      | blocks _ hr => exact hr
      | text h0 => exact absurd ⟨_, _, rfl, h0⟩ ht

theorem many_lens {α : Type} {l : Lens α} (hl : l.Lawful) {F : Node → List Node → Out Body → Except Stop (Option (List Node) × Out Body)} :
    ∀ (fuel : Nat) (ns : List Node) (o : Out α), many (l.stepMany F) fuel ns o = match many F fuel ns { o with node := l.get o.node } with
      | .error e => .error e
      | .ok (r, o') => .ok (r, { o' with node := l.set o'.node o.node })
  | _, [], o => by simp [many, hl.set_get]
  | 0, n :: ns, o => by simp [many]
  | fuel + 1, n :: ns, o => by
    rw [many, many, Lens.stepMany]
    cases F n ns { o with node := l.get o.node } with
    | error e => rfl
    | ok q =>
      obtain ⟨c, o'⟩ := q
      cases c with
      | none => rfl
      | some r =>
        simp only
        rw [many_lens hl fuel r]
        simp only [hl.get_set, hl.set_set]

theorem namedLens_lawful' : namedLens.Lawful := ⟨fun _ => rfl, fun _ _ => rfl, fun _ _ _ => rfl⟩

/-- The meaning of a named type is its signature and its content. -/
theorem namedMeaning_eq (w : World) (n : Node) (ns : List Node) (types : Context) : namedMeaning w n ns types =
    match namedSignature n ⟨[], {}, types, []⟩ with
    | .error e => .error e
    | .ok o =>
      match typeContent w ns ⟨⟨o.node.sections, o.node.type.base⟩, o.types, []⟩ with
      | .error e => .error e
      | .ok (r, x) => .ok (r, namedFinalize ⟨namedLens.set x.node o.node, x.types, o.warnings ++ x.warnings⟩) := by
  unfold namedMeaning namedResult headResult signed unplaced
  cases hs : namedSignature n ⟨[], {}, types, []⟩ with
  | error e => rfl
  | ok o =>
    have hsec : o.node.sections = [] := by
      unfold namedSignature at hs
      split at hs
      · cases hs
      · cases hs; rfl
    obtain ⟨a, types₁, ws₁⟩ := o
    simp only at hsec ⊢
    rw [walk_lens namedLens_lawful']
    simp only
    rw [walk_frame (describe_frame w)]
    unfold typeContent
    have hg : namedLens.get a = ⟨a.sections, a.type.base⟩ := rfl
    rw [hg]
    cases hw : walk (describe w) (ns.takeWhile memberDescription) ⟨⟨a.sections, a.type.base⟩, types₁, []⟩ with
    | error e => rfl
    | ok q =>
      obtain ⟨r, o₂⟩ := q
      obtain ⟨rfl, hw2⟩ := describe_walk (.inl hsec) hw
      obtain ⟨b₂, types₂, ws₂⟩ := o₂
      simp only at hw2
      subst hw2
      simp only [afterW, after, List.append_nil]
      rw [many_lens namedLens_lawful']
      simp only [namedLens_lawful'.get_set, namedLens_lawful'.set_set]
      rw [many_frame (typeStep_frame w _ _)]
      cases many (typeStep w (meaning w) (meaning w)) (ns.dropWhile memberDescription).length (ns.dropWhile memberDescription) ⟨b₂, types₂, []⟩ with
      | error e => rfl
      | ok q => rfl

theorem typed_iff {t u : TypeDef} : Typed t u ↔ u = objectBase t := by
  unfold objectBase
  constructor
  · intro h
    cases h with
    | given h => rw [if_neg h]
    | object h => rw [if_pos h]
  · intro h
    by_cases hb : t.base = .undefined
    · rw [if_pos hb] at h; subst h; exact .object hb
    · rw [if_neg hb] at h; subst h; exact .given hb

theorem objectBase_ne (t : TypeDef) : (objectBase t).base ≠ .undefined := by
  unfold objectBase
  split
  · simp
  · assumption

theorem any_prefix {p : UInt8 → Bool} {s : Bytes} : (s.takeWhile (· ≠ 0)).any p = true ↔ ∃ a c b, s = a ++ c :: b ∧ (0 ∉ a) ∧ c ≠ 0 ∧ p c = true := by
  induction s with
  | nil => simp
  | cons x s ih =>
    by_cases hx : x = 0
    · subst hx
      rw [List.takeWhile_cons_of_neg (by simp)]
      simp only [List.any_nil, Bool.false_eq_true, false_iff]
      rintro ⟨a, c, b, h, h0, hc, _⟩
      cases a with
      | nil => simp at h; exact hc h.1.symm
      | cons y a => simp at h; exact h0 (by rw [← h.1]; exact List.mem_cons_self ..)
    · rw [List.takeWhile_cons_of_pos (by simpa using hx), List.any_cons, Bool.or_eq_true, ih]
      constructor
      · rintro (h | ⟨a, c, b, rfl, h0, hc, hp⟩)
        · exact ⟨[], x, s, rfl, by simp, hx, h⟩
        · exact ⟨x :: a, c, b, rfl, by simp [h0, Ne.symm hx], hc, hp⟩
      · rintro ⟨a, c, b, h, h0, hc, hp⟩
        cases a with
        | nil => simp at h; rw [h.1]; exact .inl hp
        | cons y a =>
          simp at h
          exact .inr ⟨a, c, b, h.2, fun h' => h0 (List.mem_cons_of_mem _ h'), hc, hp⟩

theorem reports_iff {text name : Bytes} {ws : List Warning} : Reports text name ws ↔
    ws = if (trim text).head? ≠ some (asc '`') && (name.takeWhile (· ≠ 0)).any isReserved then [.reservedCharacters] else [] := by
  have hr : ∀ c, isReserved c = true ↔ Reserved c := by intro c; simp [isReserved, Reserved]
  have hz : ¬ Reserved 0 := by unfold Reserved; decide
  constructor
  · intro h
    cases h with
    | yes ht hh hn h0 hc hr' =>
      rw [trim_iff.mpr ht, if_pos]
      simp only [decide_eq_true hh, Bool.true_and]
      exact any_prefix.mpr ⟨_, _, _, hn, h0, hc, (hr _).mpr hr'⟩
    | no ht hh =>
      rw [trim_iff.mpr ht, if_neg]
      intro hx
      simp only [Bool.and_eq_true, decide_eq_true_eq] at hx
      obtain ⟨hx, hy⟩ := hx
      rcases hh with hh | hh
      · exact hx hh
      · obtain ⟨a, c, b, h1, h2, h3, h4⟩ := any_prefix.mp hy
        exact hh a c b h1 h2 ((hr c).mp h4)
  · intro h
    by_cases hx : (decide ((trim text).head? ≠ some (asc '`')) && (name.takeWhile (· ≠ 0)).any isReserved) = true
    · rw [if_pos hx] at h
      subst h
      simp only [Bool.and_eq_true, decide_eq_true_eq] at hx
      obtain ⟨a, c, b, h1, h2, h3, h4⟩ := any_prefix.mp hx.2
      exact .yes (trim_iff.mp rfl) hx.1 h1 h2 h3 ((hr c).mp h4)
    · rw [if_neg hx] at h
      subst h
      refine .no (trim_iff.mp rfl) ?_
      by_cases hh : (trim text).head? = some (asc '`')
      · exact .inl hh
      · right
        intro p c q h1 h2 h3
        refine hx ?_
        simp only [Bool.and_eq_true, decide_eq_true_eq]
        exact ⟨hh, any_prefix.mpr ⟨p, c, q, h1, h2, fun hc => hz (hc ▸ h3), (hr c).mpr h3⟩⟩

/-- A named type is what the specification says. -/
theorem named_iff {w : World} {n : Node} {ns rest : List Node} {types : Context} {o : Out NamedType} :
    namedMeaning w n ns types = .ok (rest, o) ↔ TypeRead w types n ns o.node o.types o.warnings rest := by
  rw [namedMeaning_eq]
  constructor
  · intro h
    unfold namedSignature at h
    cases hr : readSignature typeTraits n with
    | error e => rw [hr] at h; cases h
    | ok q =>
      obtain ⟨s', ws'⟩ := q
      rw [hr] at h
      obtain ⟨line, rest', s, hs, rfl⟩ := (signed_iff (by decide)).mp hr
      simp only [List.nil_append] at h
      cases hc : typeContent w ns ⟨⟨[], (objectBase (Mson.parseTypeDefinition types s.attributes).1).base⟩,
          { (Mson.parseTypeDefinition types s.attributes).2.1 with context := (Mson.parseValue s.identifier).literal }, []⟩ with
      | error e => rw [hc] at h; cases h
      | ok q =>
        obtain ⟨r, ⟨ss, b⟩, types', ws⟩ := q
        rw [hc] at h
        obtain ⟨h1, h2⟩ := (typeContent_iff (objectBase_ne _)).mp hc
        simp only at h1 h2
        subst h1
        cases h
        exact .mk hs (typed_iff.mpr rfl) (reports_iff.mpr rfl) h2
  · intro h
    obtain ⟨node, otypes, ows⟩ := o
    simp only at h
    cases h with
    | @mk line under sig sw type ss types' rs ws _ hs ht hrs hc =>
      unfold namedSignature
      rw [(signed_iff (by decide)).mpr ⟨line, under, sig, hs, rfl⟩]
      simp only [List.nil_append]
      rw [typed_iff.mp ht] at hc ⊢
      rw [reports_iff.mp hrs]
      have := (typeContent_iff (o := ⟨⟨ss, (objectBase (Mson.parseTypeDefinition types sig.attributes).1).base⟩, types', ws⟩) (objectBase_ne _)).mpr ⟨rfl, hc⟩
      rw [this]
      rfl

theorem named_suffix {w : World} {n : Node} {ns rest : List Node} {types : Context} {o : Out NamedType} (h : namedMeaning w n ns types = .ok (rest, o)) :
    rest <:+ ns := by
  rw [namedMeaning_eq] at h
  split at h
  · cases h
  · split at h
    · cases h
    · rename_i hc
      cases h
      unfold typeContent at hc
      split at hc
      · cases hc
      · rename_i r rs d hw
        cases hc
        have h1 := walk_drop hw
        have h2 : r :: rs <:+ ns.takeWhile memberDescription := by rw [h1]; exact List.drop_suffix _ _
        obtain ⟨pre, hpre⟩ := h2
        exact ⟨pre, by rw [← List.append_assoc, hpre, List.takeWhile_append_dropWhile]⟩
      · exact (many_suffix (typeStep_suffixes w _ _) hc).trans (List.dropWhile_suffix _)

end Verif.MsonParser
