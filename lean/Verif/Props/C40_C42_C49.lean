import Verif.Proof.Signature
/-!
# C40 Signature parsing loses nothing; C41 Signature attribute parsing is memory safe; C42 Trimming and splitting; C49 Backtick escapes
-/
namespace Verif.Props
open Verif Verif.Text Verif.Signature Verif.Spec

/-! ## C42 -/

/-- Trimming removes exactly the surrounding white space. -/
theorem C42_trim (s t : Bytes) : trim s = t ↔ Trimmed s t := trim_iff

example : trim (str " a b\n") = str "a b" := by decide +kernel
example : Trimmed (str " a b\n") (str "a b") := (C42_trim _ _).1 (by decide +kernel)

theorem C42_trim_idempotent (s : Bytes) : trim (trim s) = trim s := trim_trim s

/-- Splitting on the first delimiter is inverted by joining; there is one part if there is no delimiter. -/
theorem C42_split_first (d : UInt8) (s : Bytes) :
    (d ∉ s ∧ splitOnFirst d s = [s]) ∨ ∃ a b, splitOnFirst d s = [a, b] ∧ d ∉ a ∧ s = a ++ [d] ++ b := by
  rcases splitOnFirst_cases d s with ⟨h1, h2⟩ | ⟨a, b, h1, h2, h3⟩
  · exact .inl ⟨h2, h1⟩
  · exact .inr ⟨a, b, h1, h3, by simp [h2]⟩

example : splitOnFirst (asc ':') (str "a:b:c") = [str "a", str "b:c"] := by decide +kernel

/-- Splitting on every delimiter gives parts without delimiters that, joined, are the text, but for a delimiter at its end. -/
theorem C42_split (d : UInt8) (s : Bytes) : (∀ p ∈ split d s, d ∉ p) ∧
    (s.getLast? ≠ some d → [d].intercalate (split d s) = s) ∧ (s.getLast? = some d → [d].intercalate (split d s) ++ [d] = s) :=
  ⟨split_mem d s, split_join d s⟩

example : split (asc '\n') (str "a\n\nb\n") = [str "a", [], str "b"] := by
  decide +kernel

/-- A line is accepted as key and value exactly if there is a colon with something on both sides, and the parts are what stands
    before and after the first colon, trimmed. -/
theorem C42_key_value (line k v : Bytes) : keyValueFromLine line = some (k, v) ↔
    ∃ a b, line = a ++ [asc ':'] ++ b ∧ asc ':' ∉ a ∧ Trimmed a k ∧ Trimmed b v ∧ k ≠ [] ∧ v ≠ [] := by
  rw [keyValue_iff]; simp

example : keyValueFromLine (str "FORMAT: 1A : x ") = some (str "FORMAT", str "1A : x") := by decide +kernel
example : keyValueFromLine (str "FORMAT: ") = none := by decide +kernel

/-- The position and length of the trimmed text are those of the trimmed text, if there is any. -/
theorem C42_trim_info_partial (s : Bytes) (h : ¬ Blank s) :
    ∃ f n : Nat, trimInfo s = ((f : Int), (n : Int)) ∧ (s.drop f).take n = trim s ∧ 0 < n := trimInfo_spec h

example : trimInfo (str "  ab ") = (2, 2) := by decide +kernel

/-- Of blank text they are not: the length is negative (and converted to a huge unsigned one). -/
theorem C42_trim_info_refuted : ∃ s : Bytes, Blank s ∧ (trimInfo s).2 < 0 :=
  ⟨str "  ", by unfold Blank White; decide +kernel, by decide +kernel⟩

/-! ## C49 -/

/-- Text that is not enclosed in backticks is unchanged. -/
theorem C49_plain (s : Bytes) (h : s.head? ≠ some (asc '`') ∨ s.getLast? ≠ some (asc '`')) : stripBackticks s = s := strip_plain h

/-- Of a text enclosed in any number of backticks, the enclosed text is returned, trimmed. -/
theorem C49_enclosed (n : Nat) (t : Bytes) (hn : 0 < n) (h1 : t ≠ []) (h2 : t.head? ≠ some (asc '`')) (h3 : t.getLast? ≠ some (asc '`'))
    (h4 : ¬ ticks n <:+: t) : stripBackticks (ticks n ++ t ++ ticks n) = trim t := strip_enclosed hn h1 h2 h3 h4

example : stripBackticks (str "``a ` b ``") = str "a ` b" := by decide +kernel

/-- The result is the text or a trimmed escape with which it begins. -/
theorem C49_shape_partial (s : Bytes) : stripBackticks s = s ∨
    ∃ n t r, 0 < n ∧ s = ticks n ++ t ++ ticks n ++ r ∧ stripBackticks s = trim t := strip_cases s

/-- Text outside the first escape is lost when the text ends with another one. -/
theorem C49_refuted : stripBackticks (str "`a` b `c`") = str "a" := by decide +kernel

/-! ## C40 -/

/-- The identifier, what follows it, and the white space around them, are the text; what follows is empty or begins with a
    delimiter of the signature. -/
theorem C40_identifier (t : Traits) (s : Bytes) : ∃ a b c, s = a ++ (parseIdentifier t s).1 ++ b ++ (parseIdentifier t s).2 ++ c ∧
    Blank a ∧ Blank b ∧ Blank c ∧ Bare (parseIdentifier t s).1 ∧ Bare (parseIdentifier t s).2 := by
  obtain ⟨a, c, hs, ha, hc, hb⟩ := trim_spec s
  obtain ⟨h1, _⟩ := identifierLoop_spec t (trim s) 0 [] (by simp)
  unfold parseIdentifier
  dsimp only
  rw [show (if (identifierLoop t (trim s) 0 []).2.1 = (identifierLoop t (trim s) 0 []).1.length then [] else (identifierLoop t (trim s) 0 []).1) =
    rest (identifierLoop t (trim s) 0 []).1 (identifierLoop t (trim s) 0 []).2.1 from rfl]
  generalize rest (identifierLoop t (trim s) 0 []).1 (identifierLoop t (trim s) 0 []).2.1 = q at h1 ⊢
  generalize (identifierLoop t (trim s) 0 []).2.2 = p at h1 ⊢
  simp only [List.nil_append, List.drop_zero] at h1
  obtain ⟨a1, b1, e1, ha1, hb1, hp⟩ := trim_spec p
  obtain ⟨a2, b2, e2, ha2, hb2, hq⟩ := trim_spec q
  have hbl : ∀ x y : Bytes, Blank x → Blank y → Blank (x ++ y) := by
    intro x y hx hy d hd
    rcases List.mem_append.1 hd with hd | hd
    · exact hx d hd
    · exact hy d hd
  refine ⟨a ++ a1, b1 ++ a2, b2 ++ c, ?_, hbl _ _ ha ha1, hbl _ _ hb1 ha2, hbl _ _ hb2 hc, hp, hq⟩
  conv => lhs; rw [hs, ← h1, e1, e2]
  simp

/-- The traits of an MSON property: identifier, values, attributes and description. -/
def propertyTraits : Traits := { identifier := true, values := true, attributes := true, content := true }

example : parseIdentifier propertyTraits (str " `a:b` c : d (e) - f ") = (str "`a:b` c", str ": d (e) - f") := by
  decide +kernel

/-- What follows the identifier begins with a delimiter of the signature. -/
theorem C40_rest (t : Traits) (s : Bytes) (ht : ∀ c, t.contentDelimiter.head? = some c → ¬ White c) (ht0 : t.contentDelimiter ≠ [])
    (hv : ¬ White t.valuesDelimiter) : (parseIdentifier t s).2 = [] ∨ Stops t (parseIdentifier t s).2 := by
  obtain ⟨h1, h2⟩ := identifierLoop_spec t (trim s) 0 [] (by simp)
  unfold parseIdentifier
  dsimp only
  rw [show (if (identifierLoop t (trim s) 0 []).2.1 = (identifierLoop t (trim s) 0 []).1.length then [] else (identifierLoop t (trim s) 0 []).1) =
    rest (identifierLoop t (trim s) 0 []).1 (identifierLoop t (trim s) 0 []).2.1 from rfl]
  generalize rest (identifierLoop t (trim s) 0 []).1 (identifierLoop t (trim s) 0 []).2.1 = q at h1 h2 ⊢
  have hsol : Solid q := by
    refine Solid.suffix (a := (identifierLoop t (trim s) 0 []).2.2) ?_
    rw [h1]; simpa using bare_solid (bare_trim s)
  rcases h2 with h2 | h2
  · left; rw [h2]; rfl
  · right
    have : trim q = q := by
      refine trim_bare ⟨fun c hc => ?_, hsol⟩
      rcases h2 with ⟨_, h2⟩ | ⟨_, h2⟩ | ⟨_, r, h2⟩
      · rw [hc] at h2; cases h2; exact hv
      · rw [hc] at h2; cases h2; unfold White; decide
      · rw [← h2] at hc
        cases hd : t.contentDelimiter with
        | nil => exact absurd hd ht0
        | cons d r => rw [hd] at hc; exact ht c (by rw [hd]; simpa using hc)
    rw [this]; exact h2

/-- Without escapes the identifier ends at the first delimiter of the signature. -/
theorem C40_plain (t : Traits) (p q : Bytes) (hb : Bare (p ++ q)) (hp : ∀ c ∈ p, c ∉ str "*_`") (hq : q = [] ∨ Stops t q)
    (hs : ∀ a b, p = a ++ b → b ≠ [] → ¬ Stops t (b ++ q)) (hq0 : ∀ c, q.head? = some c → c ∉ str "*_`") :
    parseIdentifier t (p ++ q) = (trim p, trim q) := by
  have := identifierLoop_plain t p q hp hq hs hq0 [] []
  simp only [List.nil_append, List.length_nil] at this
  unfold parseIdentifier
  dsimp only
  rw [trim_bare hb, this.2]
  rw [show (if (identifierLoop t (p ++ q) 0 []).2.1 = (identifierLoop t (p ++ q) 0 []).1.length then [] else (identifierLoop t (p ++ q) 0 []).1) =
    rest (identifierLoop t (p ++ q) 0 []).1 (identifierLoop t (p ++ q) 0 []).2.1 from rfl, this.1]

/-- The text of the values is cut at commas outside escapes into the values, all of which are kept, and what follows them is
    empty or begins with another delimiter of the signature. -/
theorem C40_values (t : Traits) (s : Bytes) : ∃ ps last q, trim (s.drop 1) = commas ps ++ last ++ q ∧
    (parseValues t s).2.1 = ps.map (fun p => stripBackticks (trim p)) ++ (if trim last = [] then [] else [trim last]) ∧
    (parseValues t s).2.2 = trim q ∧ (q = [] ∨ Stops { t with values := false } q) := by
  obtain ⟨ps, last, h1, h2, h3, _, h5⟩ := valuesLoop_spec t (trim (s.drop 1)) 0 [] [] (by simp) (bare_solid (bare_trim _))
  refine ⟨ps, last, _, h1, ?_, rfl, h5⟩
  unfold parseValues
  dsimp only
  rw [h2, h3]
  cases trim last <;> simp

example : parseValues propertyTraits (str ": a, `b,c` , d (e)") = (str "a, `b,c` , d", [str "a", str "b,c", str "d"], str "(e)") := by
  decide +kernel

/-! ## C41 -/

/-- Parsing attributes terminates. -/
theorem C41_terminates (s : Bytes) : parseAttributes s ≠ .error .fuel := parseAttributes_fuel s

/-- A list of balanced attributes, none of them empty, is parsed to exactly these attributes, trimmed and without blank ones, and
    what follows the closing parenthesis. -/
theorem C41_balanced (as : List Bytes) (q : Bytes) (h0 : as ≠ []) (ha : ∀ x ∈ as, x ≠ [] ∧ Balanced (str "),") x) :
    parseAttributes (asc '(' :: [asc ','].intercalate as ++ asc ')' :: q) = .ok ((as.map trim).filter (fun x => !x.isEmpty), trim q) :=
  parseAttributes_balanced h0 ha

example : parseAttributes (str "(array[a, b], `x)`, required) - d") = .ok ([str "array[a, b]", str "`x)`", str "required"], str "- d") := by
  rfl

/-- Nothing outside the string is read if no comma is last or followed by a closing parenthesis, and no closing parenthesis or
    end follows the opening one: partial, as the property is claimed of all texts. -/
theorem C41_safe_partial (q : Bytes) (hq : q ≠ []) (h1 : q.head? ≠ some (asc ')')) (h2 : ¬ str ",)" <:+: q)
    (h3 : q.getLast? ≠ some (asc ',')) : ∃ r, parseAttributes (asc '(' :: q) = .ok r := parseAttributes_safe hq h1 h2 h3

example : ∃ r, parseAttributes (asc '(' :: str "a, [b") = .ok r := C41_safe_partial _ (by decide) (by decide) (by decide +kernel) (by decide)

/-- `attribute[attribute.length() - 1]` is read of an empty attribute. -/
theorem C41_refuted : parseAttributes (str "()") = .error .outOfBounds ∧ parseAttributes (str "(a,)") = .error .outOfBounds ∧
    parseAttributes (str "([,") = .error .outOfBounds := ⟨rfl, rfl, rfl⟩

deriving instance DecidableEq for Except

/-- So is it while a whole signature is parsed. -/
theorem C41_signature_refuted : parseSignature propertyTraits (str "a: b ()") = .error .outOfBounds := by
  decide +kernel

end Verif.Props
