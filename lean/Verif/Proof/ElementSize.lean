import Verif.Model.ElementSize
import Verif.Spec.Cardinality
import Verif.Proof.ElementUtils
import Mathlib.Data.ENat.Basic
import Mathlib.Tactic.NormNum
import Mathlib.Tactic.Linarith
/-! Exactness of the computed cardinalities. -/
namespace Verif.Refract
open Verif Verif.Spec

theorem sizeOfMult_fuel (f : Elem → Except Fault Cardinal) (es : List Elem) (h : ∀ e ∈ es, f e ≠ .error .fuel) :
    ∀ a, sizeOfMult f a es ≠ .error .fuel := by
  induction es with
  | nil => intro a; simp [sizeOfMult]
  | cons e es ih =>
    intro a
    rw [sizeOfMult]
    split
    · rename_i x hx
      intro he; cases he
      rw [noexceptF_fuel] at hx
      exact h e (by simp) hx
    · exact ih (fun x hx => h x (by simp [hx])) _

theorem sizeOfSum_fuel (f : Elem → Except Fault Cardinal) (es : List Elem) (h : ∀ e ∈ es, f e ≠ .error .fuel) :
    ∀ a, sizeOfSum f a es ≠ .error .fuel := by
  induction es with
  | nil => intro a; simp [sizeOfSum]
  | cons e es ih =>
    intro a
    rw [sizeOfSum]
    split
    · rename_i x hx
      intro he; cases he
      rw [noexceptF_fuel] at hx
      exact h e (by simp) hx
    · exact ih (fun x hx => h x (by simp [hx])) _

theorem enumerations_eq {e x : Elem} (h : enumerations e = some x) :
    Infos.find e.attributes (str "enumerations") = some x ∧ ∃ es, x.data = .array es := by
  unfold enumerations at h
  split at h
  · cases h
  · rename_i y hy
    split at h
    · rename_i es hd; cases h; exact ⟨hy, es, hd⟩
    · cases h

/-- `sizeOf` never exceeds a bound of the weight of the element. -/
theorem sizeOfN_fuel (n : Nat) : ∀ (e : Elem) (f : Bool), weight e ≤ n → sizeOfN n e f ≠ .error .fuel := by
  induction n with
  | zero => intro e f h; have := weight_pos e; omega
  | succ n ih =>
    intro e f h
    have hw := weight_eq e
    have hlist : ∀ es : List Elem, weightList es < weight e → ∀ g, ∀ x ∈ es, sizeOfN n x g ≠ .error .fuel := by
      intro es hes g x hx
      exact ih x g (by have := weightList_mem hx; omega)
    rw [sizeOfN]
    split
    · rename_i es hd
      rw [hd] at hw; simp only [weightData] at hw
      dsimp only
      split
      · split
        · simp
        · split
          · rename_i x hx; intro he; cases he
            exact sizeOfMult_fuel _ _ (hlist es (by omega) _) _ hx
          · simp
      · simp
    · rename_i k v hd
      rw [hd] at hw; simp only [weightData] at hw
      cases v with
      | none => simp
      | some v =>
        simp only [weightOpt] at hw
        dsimp only
        split
        · simp
        · split
          · rename_i x hx; intro he; cases he
            exact ih v f (by omega) hx
          · simp
    · rename_i es hd
      rw [hd] at hw; simp only [weightData] at hw
      split
      · split
        · simp
        · split
          · rename_i x hx; intro he; cases he
            exact sizeOfMult_fuel _ _ (hlist es (by omega) _) _ hx
          · simp
      · split
        · split
          · simp
          · split
            · rename_i x hx; intro he; cases he
              exact sizeOfSum_fuel _ _ (hlist es (by omega) _) _ hx
            · simp
        · simp
    · rename_i v hd
      split
      · simp
      · rename_i x hx
        obtain ⟨h1, es, h2⟩ := enumerations_eq hx
        rw [h2]
        dsimp only
        split
        · simp
        · have hwx := weight_of_data h2
          have := weightInfos_find h1
          simp only [weightData] at hwx
          split
          · rename_i x hx; intro he; cases he
            exact sizeOfSum_fuel _ _ (hlist es (by omega) _) _ hx
          · simp
    · simp
    · simp
    · simp
    · simp
    · rename_i es hd
      rw [hd] at hw; simp only [weightData] at hw
      split
      · simp
      · split <;> try simp
        rename_i m hm
        have := merge_weight hm
        exact ih m f (by omega)
    · split
      · rename_i x hx; intro he; cases he; exact resolve_fuel _ hx
      · rename_i r hr; have := resolve_weight hr; exact ih r f (by omega)
    · rename_i d hd
      rw [hd] at hw; simp only [weightData] at hw
      cases d with
      | none => simp
      | some d =>
        simp only [weightOpt] at hw
        dsimp only
        split
        · simp
        · exact ih d f (by omega)
    · rename_i es hd
      rw [hd] at hw; simp only [weightData] at hw
      split
      · simp
      · exact sizeOfSum_fuel _ _ (hlist es (by omega) _) _
    · rename_i es hd
      rw [hd] at hw; simp only [weightData] at hw
      split
      · simp
      · exact sizeOfMult_fuel _ _ (hlist es (by omega) _) _

/-- A relation between machine cardinalities and exact ones (for elements of a given weight) that the operations keep. -/
structure Closed (R : Nat → Cardinal → ℕ∞ → Prop) : Prop where
  mono : ∀ {v w c N}, v ≤ w → R v c N → R w c N
  zero : R 0 0 0
  one : R 0 1 1
  two : R 1 2 2
  top : R 1 Cardinal.open ⊤
  mul : ∀ {v w a b A B}, R v a A → R w b B → R (v + w) (Cardinal.mul a b) (A * B)
  add : ∀ {v w a b A B}, 1 ≤ v → 1 ≤ w → R v a A → R w b B → R (v + w) (Cardinal.add a b) (A + B)

theorem add_zero_left (c : Cardinal) : Cardinal.add 0 c = c := by
  unfold Cardinal.add
  split
  · rename_i h; rcases h with h | h
    · exact absurd h (by decide)
    · exact h.symm
  · simp

theorem hasNullable_weight {e : Elem} (h : hasNullable e = true) : 1 ≤ weightInfos e.attributes := by
  unfold hasNullable hasTypeAttr at h
  split at h
  · cases h
  · rename_i t ht
    have := weightInfos_find ht
    have := weight_pos t; omega

theorem Closed.null {R} (hR : Closed R) {w : Nat} {c : Cardinal} {N : ℕ∞} {e : Elem} (h : R w c N) (hw : w < weight e)
    (hw2 : w + weightInfos e.attributes < weight e) : R (weight e) (sizeNullable c e) (orNull e N) := by
  unfold sizeNullable orNull
  by_cases hn : hasNullable e
  · rw [if_pos hn, if_pos hn]
    have h1 := hasNullable_weight hn
    have h2 : R (w + 1) c N := hR.mono (by omega) h
    have h3 : R 1 1 1 := hR.mono (by omega) hR.one
    exact hR.mono (by omega) (hR.add (by omega) (by omega) h2 h3)
  · rw [if_neg hn, if_neg hn]; exact hR.mono (by omega) h

theorem Closed.mults {R} (hR : Closed R) (f : Elem → Except Fault Cardinal) (P : Elem → ℕ∞ → Prop) (es : List Elem)
    (h : ∀ e ∈ es, ∀ c, f e = .ok c → ∃ N, P e N ∧ R (weight e) c N) (hP : ∀ e N M, P e N → P e M → N = M) :
    ∀ (w : Nat) (a : Cardinal) (A : ℕ∞) (c : Cardinal), R w a A → sizeOfMult f a es = .ok c →
      ∃ g : Elem → ℕ∞, (∀ e ∈ es, P e (g e)) ∧ R (w + weightList es) c (A * (es.map g).prod) := by
  induction es with
  | nil => intro w a A c ha hc; simp [sizeOfMult] at hc; subst hc; exact ⟨fun _ => 0, by simp, by simpa [weightList] using ha⟩
  | cons e es ih =>
    intro w a A c ha hc
    rw [sizeOfMult] at hc
    split at hc
    · cases hc
    · rename_i b hb
      obtain ⟨N, hN, hRN⟩ := h e (by simp) b (noexceptF_ok hb)
      obtain ⟨g, hg, hr⟩ := ih (fun x hx => h x (by simp [hx])) _ _ _ _ (hR.mul ha hRN) hc
      classical
      refine ⟨fun x => if x = e then N else g x, ?_, ?_⟩
      · intro x hx
        by_cases hxe : x = e
        · simp [hxe, hN]
        · simp [hxe]; rcases List.mem_cons.1 hx with h1 | h1
          · exact absurd h1 hxe
          · exact hg x h1
      · have hmap : es.map (fun x => if x = e then N else g x) = es.map g := by
          apply List.map_congr_left
          intro x hx
          by_cases hxe : x = e
          · simp only [hxe, ↓reduceIte]
            exact hP e _ _ hN (hxe ▸ hg x hx)
          · simp [hxe]
        rw [List.map_cons, List.prod_cons, hmap]
        simp only [↓reduceIte]
        rw [weightList, ← mul_assoc, ← Nat.add_assoc]
        exact hr

theorem Closed.sums {R} (hR : Closed R) (f : Elem → Except Fault Cardinal) (P : Elem → ℕ∞ → Prop) (es : List Elem)
    (h : ∀ e ∈ es, ∀ c, f e = .ok c → ∃ N, P e N ∧ R (weight e) c N) (hP : ∀ e N M, P e N → P e M → N = M) :
    ∀ (w : Nat) (a : Cardinal) (A : ℕ∞) (c : Cardinal), (w = 0 ∧ a = 0 ∧ A = 0 ∨ 1 ≤ w ∧ R w a A) → sizeOfSum f a es = .ok c →
      ∃ g : Elem → ℕ∞, (∀ e ∈ es, P e (g e)) ∧ R (w + weightList es) c (A + (es.map g).sum) := by
  induction es with
  | nil =>
    intro w a A c ha hc; simp [sizeOfSum] at hc; subst hc; refine ⟨fun _ => 0, by simp, ?_⟩
    rcases ha with ⟨rfl, rfl, rfl⟩ | ⟨_, ha⟩
    · simpa [weightList] using hR.zero
    · simpa [weightList] using ha
  | cons e es ih =>
    intro w a A c ha hc
    rw [sizeOfSum] at hc
    split at hc
    · cases hc
    · rename_i b hb
      obtain ⟨N, hN, hRN⟩ := h e (by simp) b (noexceptF_ok hb)
      have hp := weight_pos e
      have hadd : R (w + weight e) (Cardinal.add a b) (A + N) := by
        rcases ha with ⟨rfl, rfl, rfl⟩ | ⟨hw, ha⟩
        · rw [add_zero_left]; simpa using hRN
        · exact hR.add hw hp ha hRN
      obtain ⟨g, hg, hr⟩ := ih (fun x hx => h x (by simp [hx])) _ _ _ _ (Or.inr ⟨by omega, hadd⟩) hc
      classical
      refine ⟨fun x => if x = e then N else g x, ?_, ?_⟩
      · intro x hx
        by_cases hxe : x = e
        · simp [hxe, hN]
        · simp [hxe]; rcases List.mem_cons.1 hx with h1 | h1
          · exact absurd h1 hxe
          · exact hg x h1
      · have hmap : es.map (fun x => if x = e then N else g x) = es.map g := by
          apply List.map_congr_left
          intro x hx
          by_cases hxe : x = e
          · simp only [hxe, ↓reduceIte]
            exact hP e _ _ hN (hxe ▸ hg x hx)
          · simp [hxe]
        rw [List.map_cons, List.sum_cons, hmap]
        simp only [↓reduceIte]
        rw [weightList]
        have h4 : A + (N + (es.map g).sum) = A + N + (es.map g).sum := (add_assoc _ _ _).symm
        rw [h4, ← Nat.add_assoc]
        exact hr

end Verif.Refract

namespace Verif.Spec
open Verif Verif.Refract

private theorem hl (es : List Elem) (g g' : Elem → ℕ∞) (h : ∀ x ∈ es, g x = g' x) : es.map g = es.map g' :=
  List.map_congr_left h

/-- The exact count is unique. -/
theorem Counts.unique {e : Elem} {f : Bool} {n : ℕ∞} (h : Counts e f n) : ∀ m, Counts e f m → n = m := by
  induction h with
  | object g hd hf hh hx ih =>
    intro m h2
    cases h2 with
    | object g' hd' _ _ hx' =>
      rw [hd] at hd'; cases hd'
      rw [hl _ g g' (fun x hx => ih x hx _ (hx' x hx))]
    | _ => simp_all
  | array g hd hf hh hx ih =>
    intro m h2
    cases h2 with
    | array g' hd' _ _ hx' =>
      rw [hd] at hd'; cases hd'
      rw [hl _ g g' (fun x hx => ih x hx _ (hx' x hx))]
    | _ => simp_all
  | enum g hd hf hx hh hy ih =>
    intro m h2
    cases h2 with
    | enum g' hd' hf' hx' _ hy' =>
      rw [hf] at hf'; cases hf'
      rw [hx] at hx'; cases hx'
      rw [hl _ g g' (fun x hx => ih x hx _ (hy' x hx))]
    | _ => simp_all
  | select g hd hh hx ih =>
    intro m h2
    cases h2 with
    | select g' hd' _ hx' =>
      rw [hd] at hd'; cases hd'
      rw [hl _ g g' (fun x hx => ih x hx _ (hx' x hx))]
    | _ => simp_all
  | option g hd hh hx ih =>
    intro m h2
    cases h2 with
    | option g' hd' _ hx' =>
      rw [hd] at hd'; cases hd'
      rw [hl _ g g' (fun x hx => ih x hx _ (hx' x hx))]
    | _ => simp_all
  | member hd hh hv hc ih =>
    intro m h2
    cases h2 with
    | member hd' _ _ hc' => rw [hd] at hd'; cases hd'; rw [ih _ hc']
    | _ => simp_all
  | memberVariable hd hh hv hc ih =>
    intro m h2
    cases h2 with
    | memberVariable hd' _ _ hc' => rw [hd] at hd'; cases hd'; rw [ih _ hc']
    | _ => simp_all
  | extend hd hh hv hc ih =>
    intro m h2
    cases h2 with
    | extend hd' _ hv' hc' => rw [hd] at hd'; cases hd'; rw [hv] at hv'; cases hv'; rw [ih _ hc']
    | _ => simp_all
  | ref hd hh hv ih =>
    intro m h2
    cases h2 with
    | ref hd' hh' hc' => rw [hh] at hh'; cases hh'; rw [ih _ hc']
    | _ => simp_all
  | holder hd hh hv ih =>
    intro m h2
    cases h2 with
    | holder hd' _ hc' => rw [hd] at hd'; cases hd'; rw [ih _ hc']
    | _ => simp_all
  | _ => intro m h2; cases h2 <;> simp_all

end Verif.Spec

namespace Verif.Refract
open Verif Verif.Spec

/-- Every result of `sizeOf` is related to the exact count. -/
theorem Closed.sizeOfN {R} (hR : Closed R) (n : Nat) : ∀ (e : Elem) (f : Bool) (c : Cardinal), sizeOfN n e f = .ok c →
    ∃ N, Counts e f N ∧ R (weight e) c N := by
  induction n with
  | zero => intro e f c h; simp [Refract.sizeOfN] at h
  | succ n ih =>
    intro e f c h
    have hw := weight_eq e
    have huniq : ∀ g : Bool, ∀ (e : Elem) (N M : ℕ∞), Counts e g N → Counts e g M → N = M := fun g e N M h1 h2 => h1.unique _ h2
    have hzero : R (weight e) 0 0 := hR.mono (by omega) hR.zero
    have hone : ∀ {w}, R w 1 1 := hR.mono (by omega) hR.one
    have leaf : ∀ {c N}, R 1 c N → e.data.kind ≠ .object → weightData e.data = 0 → R (weight e) (sizeNullable c e) (orNull e N) := by
      intro c N hr _ h0
      unfold sizeNullable orNull
      by_cases hn : hasNullable e
      · rw [if_pos hn, if_pos hn]
        have h1 := hasNullable_weight hn
        exact hR.mono (by omega) (hR.add (Nat.le_refl 1) (Nat.le_refl 1) hr hone)
      · rw [if_neg hn, if_neg hn]; exact hR.mono (by omega) hr
    have topN : R (weight e) (sizeNullable Cardinal.open e) (orNull e ⊤) := by
      unfold sizeNullable orNull
      by_cases hn : hasNullable e
      · rw [if_pos hn, if_pos hn]
        have h1 := hasNullable_weight hn
        exact hR.mono (by omega) (hR.add (Nat.le_refl 1) (Nat.le_refl 1) hR.top hone)
      · rw [if_neg hn, if_neg hn]; exact hR.mono (by omega) hR.top
    have oneN : R (weight e) (sizeNullable 1 e) (orNull e 1) := hR.null hR.one (by omega) (by omega)
    have zeroN : R (weight e) (sizeNullable 0 e) (orNull e 0) := hR.null hR.zero (by omega) (by omega)
    rw [Refract.sizeOfN] at h
    split at h
    · rename_i es hd
      rw [hd] at hw; simp only [weightData] at hw
      dsimp only at h
      split at h
      · rename_i hfix
        have hfix' : f = true ∨ hasFixed e = true ∨ hasFixedType e = true := by
          simp only [Bool.or_eq_true] at hfix; rcases hfix with (h|h)|h <;> simp [h]
        split at h
        · rename_i he
          cases h
          exact ⟨_, .objectEmpty hd hfix' (by simpa [Elem.empty] using he), oneN⟩
        · rename_i he
          split at h
          · cases h
          · rename_i c' hc'
            cases h
            obtain ⟨g, hg, hr⟩ := hR.mults _ (fun x N => Counts x (f || hasFixed e) N) es (fun x _ c hc => ih x _ c hc) (huniq _) 0 1 1 _ hR.one hc'
            refine ⟨_, .object g hd hfix' (by simpa [Elem.empty] using he) hg, ?_⟩
            rw [one_mul] at hr
            exact hR.null hr (by omega) (by omega)
      · rename_i hfix
        cases h
        simp only [Bool.or_eq_true, not_or, Bool.not_eq_true] at hfix
        exact ⟨_, .objectOpen hd hfix.1.1 hfix.1.2 hfix.2, topN⟩
    · rename_i k v hd
      rw [hd] at hw; simp only [weightData] at hw
      cases v with
      | none => simp at h; cases h; exact ⟨0, .memberNone hd (.inr rfl), hzero⟩
      | some v =>
        simp only [weightOpt] at hw
        dsimp only at h
        split at h
        · rename_i he
          cases h; exact ⟨0, .memberNone hd (.inl (by simpa [Elem.empty] using he)), hzero⟩
        · rename_i he
          have he' : e.has = true := by simpa [Elem.empty] using he
          split at h
          · cases h
          · rename_i c' hc'
            cases h
            obtain ⟨N, hN, hr⟩ := ih v f c' hc'
            by_cases hv : isVariable e
            · refine ⟨_, .memberVariable hd he' hv hN, ?_⟩
              rw [if_pos hv]
              have hvw : 1 ≤ weightInfos e.attributes := by
                unfold isVariable at hv
                split at hv
                · cases hv
                · rename_i t ht
                  have := weightInfos_find ht
                  have := weight_pos t; omega
              have hm := hR.mul hR.top hr
              unfold sizeNullable orNull
              by_cases hn : hasNullable e
              · rw [if_pos hn, if_pos hn]
                have h2 : 2 ≤ weightInfos e.attributes := by
                  unfold hasNullable hasTypeAttr at hn
                  split at hn
                  · cases hn
                  · rename_i t ht
                    have h3 := weightInfos_find ht
                    unfold asArray at hn
                    split at hn
                    · cases hn
                    · rename_i es hes
                      split at hes
                      · rename_i es' hes'
                        cases hes
                        have h4 := weight_of_data hes'
                        simp only [weightData] at h4
                        cases es with
                        | nil => simp at hn
                        | cons x r =>
                          simp only [weightList] at h4
                          have := weight_pos x
                          omega
                      · cases hes
                exact hR.mono (by omega) (hR.add (by omega) (Nat.le_refl 1) hm hone)
              · rw [if_neg hn, if_neg hn]
                exact hR.mono (by omega) hm
            · refine ⟨_, .member hd he' (by simpa using hv) hN, ?_⟩
              rw [if_neg hv]
              have hm := hR.mul hR.one hr
              rw [one_mul] at hm
              exact hR.null hm (by omega) (by omega)
    · rename_i es hd
      rw [hd] at hw; simp only [weightData] at hw
      split at h
      · rename_i hfix
        have hfix' : f = true ∨ hasFixed e = true := by simpa using hfix
        split at h
        · rename_i he
          cases h
          exact ⟨_, .arrayEmpty hd hfix' (by simpa [Elem.empty] using he), oneN⟩
        · rename_i he
          split at h
          · cases h
          · rename_i c' hc'
            cases h
            obtain ⟨g, hg, hr⟩ := hR.mults _ (fun x N => Counts x true N) es (fun x _ c hc => ih x _ c hc) (huniq _) 0 1 1 _ hR.one hc'
            refine ⟨_, .array g hd hfix' (by simpa [Elem.empty] using he) hg, ?_⟩
            rw [one_mul] at hr
            exact hR.null hr (by omega) (by omega)
      · rename_i hfix
        simp only [Bool.or_eq_true, not_or, Bool.not_eq_true] at hfix
        split at h
        · rename_i ht
          split at h
          · rename_i he
            cases h
            exact ⟨_, .arrayNone hd hfix.1 hfix.2 ht (by simpa [Elem.empty] using he), zeroN⟩
          · rename_i he
            split at h
            · cases h
            · cases h
              exact ⟨_, .arrayOpen hd hfix.1 hfix.2 (fun _ => by simpa [Elem.empty] using he), topN⟩
        · rename_i ht
          cases h
          exact ⟨_, .arrayOpen hd hfix.1 hfix.2 (fun h => absurd h ht), topN⟩
    · rename_i v hd
      split at h
      · rename_i hx
        cases h
        refine ⟨0, .enumNone hd ?_, hzero⟩
        intro x es h1 h2
        simp [enumerations, h1, h2] at hx
      · rename_i x hx
        obtain ⟨h1, es, h2⟩ := enumerations_eq hx
        rw [h2] at h
        dsimp only at h
        split at h
        · rename_i he
          cases h
          refine ⟨0, .enumNone hd ?_, hzero⟩
          intro x' es' h1' h2'
          rw [h1] at h1'; cases h1'
          simpa [Elem.empty] using he
        · rename_i he
          have hwx := weight_of_data h2
          have := weightInfos_find h1
          simp only [weightData] at hwx
          split at h
          · cases h
          · rename_i c' hc'
            cases h
            obtain ⟨g, hg, hr⟩ := hR.sums _ (fun x N => Counts x (f || hasFixed e) N) es (fun x _ c hc => ih x _ c hc) (huniq _) 0 0 0 _ (.inl ⟨rfl, rfl, rfl⟩) hc'
            refine ⟨_, .enum g hd h1 h2 (by simpa [Elem.empty] using he) hg, ?_⟩
            have hr' : R (weightList es) c' (es.map g).sum := by simpa using hr
            unfold sizeNullable orNull
            by_cases hn : hasNullable e
            · rw [if_pos hn, if_pos hn]
              have h5 : R (weightList es + 1) c' (es.map g).sum := hR.mono (by omega) hr'
              exact hR.mono (by omega) (hR.add (by omega) (Nat.le_refl 1) h5 hone)
            · rw [if_neg hn, if_neg hn]; exact hR.mono (by omega) hr'
    · rename_i hd; cases h; exact ⟨1, .null hd, hone⟩
    · rename_i s hd
      have h0 : weightData e.data = 0 := by rw [hd]; rfl
      cases h
      unfold sizePrimitive
      by_cases hx : definesValue e = true ∧ f = true ∨ hasFixed e = true
      · rw [if_pos (by simpa using hx)]; exact ⟨_, .stringFixed hd hx, oneN⟩
      · rw [if_neg (by simpa using hx)]; exact ⟨_, .stringOpen hd hx, topN⟩
    · rename_i s hd
      cases h
      unfold sizePrimitive
      by_cases hx : definesValue e = true ∧ f = true ∨ hasFixed e = true
      · rw [if_pos (by simpa using hx)]; exact ⟨_, .numberFixed hd hx, oneN⟩
      · rw [if_neg (by simpa using hx)]; exact ⟨_, .numberOpen hd hx, topN⟩
    · rename_i b hd
      have h0 : weightData e.data = 0 := by rw [hd]; rfl
      cases h
      unfold sizePrimitive
      by_cases hx : definesValue e = true ∧ f = true ∨ hasFixed e = true
      · rw [if_pos (by simpa using hx)]; exact ⟨_, .boolFixed hd hx, oneN⟩
      · rw [if_neg (by simpa using hx)]; exact ⟨_, .boolOpen hd hx, leaf hR.two (by rw [hd]; simp [Data.kind]) h0⟩
    · rename_i es hd
      rw [hd] at hw; simp only [weightData] at hw
      split at h
      · rename_i he
        cases h; exact ⟨0, .extendNone hd (.inl (by simpa [Elem.empty] using he)), hzero⟩
      · rename_i he
        split at h
        · cases h
        · cases h
        · rename_i hm; cases h; exact ⟨0, .extendNone hd (.inr hm), hzero⟩
        · rename_i m hm
          have := merge_weight hm
          obtain ⟨N, hN, hr⟩ := ih m f c h
          exact ⟨N, .extend hd (by simpa [Elem.empty] using he) hm hN, hR.mono (by omega) hr⟩
    · rename_i s hd
      split at h
      · cases h
      · rename_i r hr
        have := resolve_weight hr
        obtain ⟨N, hN, hr2⟩ := ih r f c h
        refine ⟨N, .ref hd ?_ hN, hR.mono (by omega) hr2⟩
        unfold resolve at hr
        split at hr
        · cases hr
        · rename_i q hq; cases hr; exact hq
    · rename_i d hd
      rw [hd] at hw; simp only [weightData] at hw
      cases d with
      | none => cases h; exact ⟨0, .holderNone hd (.inr rfl), hzero⟩
      | some d =>
        simp only [weightOpt] at hw
        dsimp only at h
        split at h
        · rename_i he
          cases h; exact ⟨0, .holderNone hd (.inl (by simpa [Elem.empty] using he)), hzero⟩
        · rename_i he
          obtain ⟨N, hN, hr⟩ := ih d f c h
          exact ⟨N, .holder hd (by simpa [Elem.empty] using he) hN, hR.mono (by omega) hr⟩
    · rename_i es hd
      rw [hd] at hw; simp only [weightData] at hw
      split at h
      · rename_i he
        cases h; exact ⟨0, .selectNone hd (by simpa [Elem.empty] using he), hzero⟩
      · rename_i he
        obtain ⟨g, hg, hr⟩ := hR.sums _ (fun x N => Counts x f N) es (fun x _ c hc => ih x _ c hc) (huniq _) 0 0 0 _ (.inl ⟨rfl, rfl, rfl⟩) h
        refine ⟨_, .select g hd (by simpa [Elem.empty] using he) hg, hR.mono (v := 0 + weightList es) (by omega) (by simpa using hr)⟩
    · rename_i es hd
      rw [hd] at hw; simp only [weightData] at hw
      split at h
      · rename_i he
        cases h; exact ⟨0, .optionNone hd (by simpa [Elem.empty] using he), hzero⟩
      · rename_i he
        obtain ⟨g, hg, hr⟩ := hR.mults _ (fun x N => Counts x f N) es (fun x _ c hc => ih x _ c hc) (huniq _) 0 1 1 _ hR.one h
        rw [one_mul] at hr
        exact ⟨_, .option g hd (by simpa [Elem.empty] using he) hg, hR.mono (by omega) hr⟩

/-! ## The two relations -/

/-- Exact below the largest machine number. -/
def Small (_ : Nat) (c : Cardinal) (N : ℕ∞) : Prop := N < 4294967295 → (c.toNat : ℕ∞) = N

theorem closed_small : Closed Small where
  mono := fun _ h => h
  zero := fun _ => rfl
  one := fun _ => rfl
  two := fun _ => rfl
  top := fun h => absurd h (by simp)
  mul := by
    intro v w a b A B ha hb h
    by_cases hA : A = 0
    · subst hA
      have h1 := ha (by norm_num)
      have : a.toNat = 0 := by exact_mod_cast h1
      have ha0 : a = 0 := UInt32.toNat_inj.1 this
      subst ha0
      simp [Cardinal.mul, Cardinal.empty]
    by_cases hB : B = 0
    · subst hB
      have h1 := hb (by norm_num)
      have : b.toNat = 0 := by exact_mod_cast h1
      have hb0 : b = 0 := UInt32.toNat_inj.1 this
      subst hb0
      simp [Cardinal.mul, Cardinal.empty]
    have hA' : A < 4294967295 := lt_of_le_of_lt (le_mul_of_one_le_right' (Order.one_le_iff_ne_zero.2 hB)) h
    have hB' : B < 4294967295 := lt_of_le_of_lt (le_mul_of_one_le_left' (Order.one_le_iff_ne_zero.2 hA)) h
    have h1 := ha hA'
    have h2 := hb hB'
    rw [← h1, ← h2] at h ⊢
    rw [← h1] at hA hA'
    rw [← h2] at hB hB'
    have h3 : a.toNat * b.toNat < 4294967295 := by exact_mod_cast h
    have hA3 : a.toNat ≠ 0 := by exact_mod_cast hA
    have hB3 : b.toNat ≠ 0 := by exact_mod_cast hB
    have hA4 : a.toNat < 4294967295 := by exact_mod_cast hA'
    have hB4 : b.toNat < 4294967295 := by exact_mod_cast hB'
    have e1 : a ≠ 0 := by intro h; subst h; exact hA3 rfl
    have e2 : b ≠ 0 := by intro h; subst h; exact hB3 rfl
    have e3 : a ≠ 0xFFFFFFFF := by intro h; subst h; exact absurd hA4 (by decide)
    have e4 : b ≠ 0xFFFFFFFF := by intro h; subst h; exact absurd hB4 (by decide)
    rw [Cardinal.mul, if_neg (by simp [Cardinal.empty, e1, e2]), if_neg (by simp [Cardinal.open, e3, e4])]
    rw [UInt32.toNat_mul, Nat.mod_eq_of_lt (by omega)]
    push_cast; rfl
  add := by
    intro v w a b A B _ _ ha hb h
    have hA' : A < 4294967295 := lt_of_le_of_lt le_self_add h
    have hB' : B < 4294967295 := lt_of_le_of_lt le_add_self h
    have h1 := ha hA'
    have h2 := hb hB'
    rw [← h1, ← h2] at h ⊢
    rw [← h1] at hA'
    rw [← h2] at hB'
    have h3 : a.toNat + b.toNat < 4294967295 := by exact_mod_cast h
    have hA4 : a.toNat < 4294967295 := by exact_mod_cast hA'
    have hB4 : b.toNat < 4294967295 := by exact_mod_cast hB'
    have e3 : a ≠ 0xFFFFFFFF := by intro h; subst h; exact absurd hA4 (by decide)
    have e4 : b ≠ 0xFFFFFFFF := by intro h; subst h; exact absurd hB4 (by decide)
    rw [Cardinal.add, if_neg (by simp [Cardinal.open, e3, e4])]
    rw [UInt32.toNat_add, Nat.mod_eq_of_lt (by omega)]
    push_cast; rfl

/-- Exact for elements of weight up to 20, whose finite counts are at most `3 ^ 20`. -/
def Exact (w : Nat) (c : Cardinal) (N : ℕ∞) : Prop := (w ≤ 20 → den c = N) ∧ (N = ⊤ ∨ N ≤ (3 ^ w : ℕ))

theorem den_open : den Cardinal.open = ⊤ := by simp [den, Cardinal.open]
theorem den_zero_iff {c : Cardinal} : den c = 0 ↔ c = 0 := by
  unfold den
  split
  · rename_i h; subst h; simp
  · simp [← UInt32.toNat_inj]
theorem den_top_iff {c : Cardinal} : den c = ⊤ ↔ c = Cardinal.open := by
  unfold den
  split
  · rename_i h; subst h; simp [Cardinal.open]
  · rename_i h; simp [Cardinal.open, h]
theorem den_of_ne {c : Cardinal} (h : c ≠ Cardinal.open) : den c = c.toNat := by
  unfold den; exact if_neg h

theorem den_mul {a b : Cardinal} (h : den a * den b = ⊤ ∨ den a * den b < 4294967295) :
    den (Cardinal.mul a b) = den a * den b := by
  by_cases ha : a = 0
  · subst ha
    have h1 : den (0 : UInt32) = 0 := den_zero_iff.2 rfl
    rw [h1]; simp [Cardinal.mul, Cardinal.empty, den_zero_iff]
  by_cases hb : b = 0
  · subst hb
    have h1 : den (0 : UInt32) = 0 := den_zero_iff.2 rfl
    rw [h1]; simp [Cardinal.mul, Cardinal.empty, den_zero_iff]
  rw [Cardinal.mul, if_neg (by simp [Cardinal.empty, ha, hb])]
  by_cases ha2 : a = Cardinal.open
  · rw [if_pos (.inl ha2), ha2, den_open, ENat.top_mul (by rw [ne_eq, den_zero_iff]; exact hb)]
  by_cases hb2 : b = Cardinal.open
  · rw [if_pos (.inr hb2), hb2, den_open, ENat.mul_top (by rw [ne_eq, den_zero_iff]; exact ha)]
  rw [if_neg (by simp [ha2, hb2])]
  rw [den_of_ne ha2, den_of_ne hb2] at h ⊢
  have h3 : a.toNat * b.toNat < 4294967295 := by
    rcases h with h | h
    · exact absurd h (by exact_mod_cast ENat.natCast_ne_top _)
    · exact_mod_cast h
  have h4 : (a * b).toNat = a.toNat * b.toNat := by rw [UInt32.toNat_mul, Nat.mod_eq_of_lt (by omega)]
  have h5 : a * b ≠ Cardinal.open := by
    intro h; rw [h] at h4; simp [Cardinal.open] at h4; omega
  rw [den_of_ne h5, h4]; push_cast; rfl

theorem den_add {a b : Cardinal} (h : den a + den b = ⊤ ∨ den a + den b < 4294967295) :
    den (Cardinal.add a b) = den a + den b := by
  by_cases ha2 : a = Cardinal.open
  · rw [Cardinal.add, if_pos (.inl ha2), ha2, den_open, top_add]
  by_cases hb2 : b = Cardinal.open
  · rw [Cardinal.add, if_pos (.inr hb2), hb2, den_open, add_top]
  rw [Cardinal.add, if_neg (by simp [ha2, hb2])]
  rw [den_of_ne ha2, den_of_ne hb2] at h ⊢
  have h3 : a.toNat + b.toNat < 4294967295 := by
    rcases h with h | h
    · exact absurd h (by exact_mod_cast ENat.natCast_ne_top _)
    · exact_mod_cast h
  have h4 : (a + b).toNat = a.toNat + b.toNat := by rw [UInt32.toNat_add, Nat.mod_eq_of_lt (by omega)]
  have h5 : a + b ≠ Cardinal.open := by
    intro h; rw [h] at h4; simp [Cardinal.open] at h4; omega
  rw [den_of_ne h5, h4]; push_cast; rfl

theorem pow_small {w : Nat} (h : w ≤ 20) : 3 ^ w < 4294967295 :=
  lt_of_le_of_lt (Nat.pow_le_pow_right (by omega) h) (by norm_num)

theorem closed_exact : Closed Exact where
  mono := by
    intro v w c N h ⟨h1, h2⟩
    refine ⟨fun hw => h1 (by omega), ?_⟩
    rcases h2 with h2 | h2
    · exact .inl h2
    · exact .inr (le_trans h2 (by exact_mod_cast Nat.pow_le_pow_right (by omega) h))
  zero := ⟨fun _ => rfl, .inr (by simp)⟩
  one := ⟨fun _ => rfl, .inr (by simp)⟩
  two := ⟨fun _ => rfl, .inr (by norm_num)⟩
  top := ⟨fun _ => den_open, .inl rfl⟩
  mul := by
    intro v w a b A B ⟨a1, a2⟩ ⟨b1, b2⟩
    have hb : A * B = ⊤ ∨ A * B ≤ (3 ^ (v + w) : ℕ) := by
      by_cases hA : A = 0
      · right; simp [hA]
      by_cases hB : B = 0
      · right; simp [hB]
      rcases a2 with rfl | a2
      · left; exact ENat.top_mul hB
      rcases b2 with rfl | b2
      · left; exact ENat.mul_top hA
      right
      rw [Nat.pow_add, Nat.cast_mul]
      exact mul_le_mul' a2 b2
    refine ⟨fun hw => ?_, hb⟩
    have h1 := a1 (by omega)
    have h2 := b1 (by omega)
    rw [← h1, ← h2] at hb ⊢
    apply den_mul
    rcases hb with hb | hb
    · exact .inl hb
    · exact .inr (lt_of_le_of_lt hb (by exact_mod_cast pow_small hw))
  add := by
    intro v w a b A B hv hw ⟨a1, a2⟩ ⟨b1, b2⟩
    have hb : A + B = ⊤ ∨ A + B ≤ (3 ^ (v + w) : ℕ) := by
      rcases a2 with rfl | a2
      · left; exact top_add _
      rcases b2 with rfl | b2
      · left; exact add_top _
      right
      refine le_trans (add_le_add a2 b2) ?_
      have : 3 ^ v + 3 ^ w ≤ 3 ^ (v + w) := by
        rw [Nat.pow_add]
        have h1 : 3 ^ 1 ≤ 3 ^ v := Nat.pow_le_pow_right (by omega) hv
        have h2 : 3 ^ 1 ≤ 3 ^ w := Nat.pow_le_pow_right (by omega) hw
        nlinarith
      exact_mod_cast this
    refine ⟨fun hw => ?_, hb⟩
    have h1 := a1 (by omega)
    have h2 := b1 (by omega)
    rw [← h1, ← h2] at hb ⊢
    apply den_add
    rcases hb with hb | hb
    · exact .inl hb
    · exact .inr (lt_of_le_of_lt hb (by exact_mod_cast pow_small hw))

end Verif.Refract
