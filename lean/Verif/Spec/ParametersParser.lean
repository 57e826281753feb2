import Verif.Model.ParametersParser
import Verif.Spec.MsonSections
import Verif.Spec.ParameterLine

/-!
# Parameters (specification)

What the blocks of a `Parameters` section are, and what is made of them.
-/

namespace Verif.Spec.ParametersParser
open Verif Verif.Text Verif.Section Verif.Spec Verif.Spec.Recognition Verif.Spec.MsonParser
open Verif.MsonParser (World Draft)
open Verif.ParametersParser (Warning)
open Verif.Spec.ParameterLine (LineTells)
open Verif.Parameters (Parameter)
open Verif.Mson (Context)
open Verif.DataStructure (Element)
open Verif.Spec.Payload (Parts Remainder Until)

/-- A block that is left out, and the report. -/
inductive Ignored (n : Node) : Warning → Prop
  | header : n.kind = .header → Ignored n (.mson .unexpectedHeader)
  | other : n.kind ≠ .header → Ignored n (.mson .unrecognised)

/-! ## Values -/

/-- `v` stands between two backticks, with none in between, and is not empty. -/
def Between (t x v y : Bytes) : Prop := t = x ++ asc '`' :: v ++ asc '`' :: y ∧ v ≠ [] ∧ asc '`' ∉ v

/-- The first of all texts between backticks.  What is behind a NUL does not count. -/
def Quoted (t v : Bytes) : Prop :=
  ∃ s x y, 0 ∉ s ∧ (t = s ∨ ∃ r, t = s ++ 0 :: r) ∧ Between s x v y ∧ ∀ x' v' y', Between s x' v' y' → x.length ≤ x'.length

/-- A list item that is one block of text. -/
def IsValue (n : Node) (t : Bytes) : Prop := n.kind = .listItem ∧ (∃ c, n.children = [c] ∧ c.text = t) ∧ ¬ Trimmed t []

/-- The values, and what is reported. -/
inductive ValueBlocks : List Node → List Bytes → List Warning → Prop
  | nil : ValueBlocks [] [] []
  | value {n t v ns vs ws} : IsValue n t → Quoted t v → ValueBlocks ns vs ws → ValueBlocks (n :: ns) (v :: vs) ws
  | bare {n t s ns vs ws} : IsValue n t → (∀ v, ¬ Quoted t v) → Trimmed t s → ValueBlocks ns vs ws →
      ValueBlocks (n :: ns) vs (.notValue s :: ws)
  | ignored {n x ns vs ws} : (∀ t, ¬ IsValue n t) → Ignored n x → ValueBlocks ns vs ws → ValueBlocks (n :: ns) vs (x :: ws)

/-! ## Both kinds of parameters -/

/-- The text of the first line and what is under it in the same block, in lines that end as `close` says. -/
inductive Under (content rest close : Bytes) : Bytes → Prop
  | nothing : rest = [] → Under content rest close content
  | text : rest ≠ [] → Under content rest close (content ++ str "\n" ++ rest ++ close)

/-- Blocks that come to the description, one after the other. -/
inductive Described (w : World) : Bytes → List Node → Bytes → Prop
  | nil {d} : Described w d [] d
  | cons {d n s d' ns e} : Source w n s → Follows d s d' → Described w d' ns e → Described w d (n :: ns) e

/-- The parameter with these traits (C51 says what they mean), and the report if they do not go together. -/
def Attributed (old : Bool) (attributes : List Bytes) (p q : Parameter) (ws : List Warning) : Prop :=
  ∃ r bad, Parameters.parseAttributes old attributes p.exampleValue = (r, bad) ∧
    q = { p with use := r.use, type := r.type, exampleValue := r.exampleValue } ∧
    (bad = true ∧ ws = [.badTraits old] ∨ bad = false ∧ ws = [])

/-- A default value needs an optional parameter. -/
inductive Clash (p : Parameter) : List Warning → Prop
  | yes : p.use ≠ .optional → p.defaultValue ≠ [] → Clash p [.clash p.name]
  | no : ¬ (p.use ≠ .optional ∧ p.defaultValue ≠ []) → Clash p []

/-- A value that is not among the expected ones (C52 says when). -/
inductive Unlisted (p : Parameter) : List Warning → Prop
  | yes {t} : Parameters.valuesWarning p = some t → Unlisted p [.notAmong t]
  | no : Parameters.valuesWarning p = none → Unlisted p []

/-! ## The old syntax: `+ name = `default` (traits) ... description` -/

/-- `Values` -/
def IsValues (n : Node) : Prop := ∃ text s, Starts n text ∧ Seen text s ∧ ValuesLine s

/-- More than one list of values. -/
inductive ValuesAgain (p : Parameter) : List Warning → Prop
  | yes : p.values ≠ [] → ValuesAgain p [.valuesAgain p.name]
  | no : p.values = [] → ValuesAgain p []

/-- A list of no values. -/
inductive NoValues (p : Parameter) : List Bytes → List Warning → Prop
  | yes : NoValues p [] [.noValues p.name]
  | no {vs} : vs ≠ [] → NoValues p vs []

/-- The blocks after the description. -/
inductive OldBlocks : Parameter → List Node → Parameter → List Warning → Prop
  | nil {p} : OldBlocks p [] p []
  | values {p n sig blocks vs a ws e ns q us} : IsValues n → ValuesAgain p a → Parts n sig blocks → ValueBlocks blocks vs ws → NoValues p vs e →
      OldBlocks { p with values := vs } ns q us → OldBlocks p (n :: ns) q (a ++ ws ++ e ++ us)
  | ignored {p n x ns q us} : ¬ IsValues n → Ignored n x → OldBlocks p ns q us → OldBlocks p (n :: ns) q (x :: us)

/-- A parameter of the old syntax. -/
def OldRead (w : World) (n : Node) (p : Parameter) (ws : List Warning) : Prop :=
  ∃ sig blocks line rest s sw text d ds bs d' p₀ tw bw cw uw, Parts n sig blocks ∧ Signed Spec.LineKinds.oldParameterLine sig line rest s sw ∧
    Under s.content rest [] text ∧ Trimmed text d ∧
    Until IsValues blocks ds bs ∧ Described w d ds d' ∧
    Attributed true s.attributes { name := s.identifier, defaultValue := s.value } p₀ tw ∧
    OldBlocks { p₀ with description := d' } bs p bw ∧ Clash p cw ∧ Unlisted p uw ∧
    ws = sw.map .mson ++ tw ++ bw ++ cw ++ uw

/-! ## The new syntax: `+ name: `sample` (type) - description` -/

/-- What a `Sample` or `Default` says. -/
inductive Sampled (d : Draft) (p : Parameter) : Parameter → Prop
  | default : d.value ≠ [] → d.klass = .default → Sampled d p { p with defaultValue := d.value }
  | sample : d.value ≠ [] → d.klass = .sample → Sampled d p { p with exampleValue := d.value }
  | nothing : d.value = [] ∨ (d.klass ≠ .default ∧ d.klass ≠ .sample) → Sampled d p p

/-- The element is this one value. -/
def Literal (e : Element) (v : Bytes) : Prop := ∃ m x, e = .value m ∧ m.definition.values = [x] ∧ x.literal = v

/-- The values among the elements. -/
inductive Literals : List Element → List Bytes → Prop
  | nil : Literals [] []
  | value {e v es vs} : Literal e v → Literals es vs → Literals (e :: es) (v :: vs)
  | other {e es vs} : (∀ v, ¬ Literal e v) → Literals es vs → Literals (e :: es) vs

/-- A header that reads like `Properties`. -/
def PropertiesHeading (n : Node) : Prop := IsHeading n ∧ ¬ OtherHeading n

/-- A type section, or a header that reads like one. -/
def Typed (n : Node) : Prop := (∃ t, IsPart n t) ∨ IsHeading n

/-- The blocks after the description. -/
inductive NewBlocks (w : World) : Parameter → Context → List Node → Parameter → Context → List Warning → Prop
  | nil {p types} : NewBlocks w p types [] p types []
  | sample {p types n o p' ns q types' us} : IsSample n → ReadPart w .msonSampleDefault .implicitPrimitive n types o → Sampled o.node p p' →
      NewBlocks w p' o.types ns q types' us → NewBlocks w p types (n :: ns) q types' (o.warnings.map .mson ++ us)
  | items {p types n o vs ns q types' us} : IsItems n → ReadPart w .msonValueMembers .implicitValue n types o → Literals o.node.elements vs →
      NewBlocks w { p with values := vs } o.types ns q types' us → NewBlocks w p types (n :: ns) q types' (o.warnings.map .mson ++ us)
  | ends {p types n ns} : IsProperties n ∨ PropertiesHeading n → NewBlocks w p types (n :: ns) p types []
  | ignored {p types n x ns q types' us} : ¬ Typed n → Ignored n x → NewBlocks w p types ns q types' us →
      NewBlocks w p types (n :: ns) q types' (x :: us)

/-- A parameter of the new syntax. -/
def NewRead (w : World) (n : Node) (types : Context) (p : Parameter) (types' : Context) (ws : List Warning) : Prop :=
  ∃ sig blocks line rest s sw d ds bs d' p₀ tw bw cw uw, Parts n sig blocks ∧ Signed Spec.LineKinds.memberLine sig line rest s sw ∧
    Under s.content rest (str "\n") d ∧ Until Typed blocks ds bs ∧ Described w d ds d' ∧
    Attributed false s.attributes { name := stripBackticks s.identifier, exampleValue := s.value } p₀ tw ∧
    NewBlocks w { p₀ with description := d' } types bs p types' bw ∧ Clash p cw ∧ Unlisted p uw ∧
    ws = sw.map .mson ++ tw ++ bw ++ cw ++ uw

/-! ## Which syntax -/

/-- The block is in the new syntax only. -/
def TellsNew (n : Node) : Prop := IsSample n ∨ IsItems n
/-- The block is in the old syntax only. -/
def TellsOld (n : Node) : Prop := ∃ s, Line n s ∧ ValuesLine s

/-- A list item whose blocks do not tell, with this first line. -/
def Silent (n : Node) (line : Bytes) : Prop :=
  (∀ m ∈ n.children, ¬ TellsNew m ∧ ¬ TellsOld m) ∧ ∃ text l, Starts n text ∧ FirstLine text l ∧ Trimmed l line

/-- A parameter of the old syntax: the first block that tells says so, or the first line looks like it. -/
def IsOld (n : Node) : Prop :=
  (n.kind = .listItem ∧ ∃ pre m post, n.children = pre ++ m :: post ∧ (∀ a ∈ pre, ¬ TellsNew a ∧ ¬ TellsOld a) ∧ TellsOld m) ∨
    ∃ line, Silent n line ∧ LineTells line .old

/-- A parameter of the new syntax. -/
def IsNew (n : Node) : Prop :=
  (n.kind = .listItem ∧ ∃ pre m post, n.children = pre ++ m :: post ∧ (∀ a ∈ pre, ¬ TellsNew a ∧ ¬ TellsOld a) ∧ TellsNew m) ∨
    ∃ line, Silent n line ∧ LineTells line .new

/-! ## The section -/

/-- The parameters with one more: it takes the place of one of the same name, at the end. -/
inductive Joins (ps : List Parameter) (p : Parameter) : List Parameter → List Warning → Prop
  | fresh : (∀ q ∈ ps, q.name ≠ p.name) → Joins ps p (ps ++ [p]) []
  | again {pre q post} : ps = pre ++ q :: post → (∀ a ∈ pre, a.name ≠ p.name) → q.name = p.name → Joins ps p (pre ++ post ++ [p]) [.again p.name]

/-- The blocks of the section. -/
inductive ParameterBlocks (w : World) : List Parameter → Context → List Node → List Parameter → Context → List Warning → Prop
  | nil {ps types} : ParameterBlocks w ps types [] ps types []
  | old {ps types n p ws ps' js ns qs types' us} : IsOld n → OldRead w n p ws → Joins ps p ps' js →
      ParameterBlocks w ps' types ns qs types' us → ParameterBlocks w ps types (n :: ns) qs types' (ws ++ js ++ us)
  | new {ps types n p types₁ ws ps' js ns qs types' us} : IsNew n → NewRead w n types p types₁ ws → Joins ps p ps' js →
      ParameterBlocks w ps' types₁ ns qs types' us → ParameterBlocks w ps types (n :: ns) qs types' (ws ++ js ++ us)
  | ignored {ps types n x ns qs types' us} : ¬ IsOld n → ¬ IsNew n → Ignored n x → ParameterBlocks w ps types ns qs types' us →
      ParameterBlocks w ps types (n :: ns) qs types' (x :: us)

/-- Text under the word `Parameters`. -/
inductive Extra (text : Bytes) : List Warning → Prop
  | yes {rest} : Remainder text rest → rest ≠ [] → Extra text [.extraContent]
  | no : Remainder text [] → Extra text []

/-- A section of no parameters. -/
inductive Nothing : List Parameter → List Warning → Prop
  | yes : Nothing [] [.noParameters]
  | no {ps} : ps ≠ [] → Nothing ps []

/-- A `Parameters` section. -/
def SectionRead (w : World) (n : Node) (types : Context) (ps : List Parameter) (types' : Context) (ws : List Warning) : Prop :=
  ∃ sig blocks ew bw nw, Parts n sig blocks ∧ Extra sig.text ew ∧ ParameterBlocks w [] types blocks ps types' bw ∧ Nothing ps nw ∧
    ws = ew ++ bw ++ nw

end Verif.Spec.ParametersParser
