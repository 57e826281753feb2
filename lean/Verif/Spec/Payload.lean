import Verif.Props.C77_Keyword
import Verif.Model.ByteBuffer
import Verif.Model.References

/-!
# What the text of a payload is (specification)

In terms of the blocks of the document, the source and the forms of first lines only.
-/

namespace Verif.Spec.Payload
open Verif Verif.Spec Verif.Spec.Recognition Verif.Section Verif.Props

/-! ## The source of a block -/

/-- The bytes of the source that the ranges select. -/
def selected (source : Bytes) (rs : List ByteBuffer.Range) : Bytes :=
  (rs.map fun r => (source.drop r.location).take r.length).flatten

/-- The ranges are in the source; the last may include the line feed that is taken to be at its end. -/
def InSource (source : Bytes) (rs : List ByteBuffer.Range) : Prop :=
  (∀ r ∈ rs.dropLast, r.location + r.length ≤ source.length) ∧
    ∀ r, rs.getLast? = some r → r.location + r.length ≤ source.length + 1

/-- What a block says: the text of a block of code, the source of any other block. -/
def content (source : Bytes) (n : Node) : Bytes := if n.kind = .code then n.text else selected source n.sourceMap

/-- The source maps of the blocks of an item, and of their blocks, are in the source. -/
def Mapped (source : Bytes) (n : Node) : Prop :=
  ∀ m ∈ n.children, InSource source m.sourceMap ∧ ∀ k ∈ m.children, InSource source k.sourceMap

/-! ## The parts of an item -/

/-- The block has a source of its own. -/
def HasSource (n : Node) : Prop := ∃ r rs, n.sourceMap = r :: rs ∧ r.length ≠ 0

/-- A list item, its first block and the other blocks.  Blocks without a source before the first that has one do not count. -/
def Parts (n sig : Node) (blocks : List Node) : Prop :=
  n.kind = .listItem ∧ ((∃ pre, n.children = pre ++ sig :: blocks ∧ (∀ p ∈ pre, ¬ HasSource p) ∧ HasSource sig) ∨
    (n.children = sig :: blocks ∧ ∀ p ∈ n.children, ¬ HasSource p))

/-- What follows the first line of a text. -/
def Remainder (text rest : Bytes) : Prop :=
  (asc '\n' ∉ text ∧ rest = []) ∨ ∃ l, asc '\n' ∉ l ∧ text = l ++ asc '\n' :: rest

/-- These lines as content: each ends with a line feed. -/
def lines (rest : Bytes) : Bytes := if rest = [] then [] else rest ++ [asc '\n']

/-- The block starts a section of some kind. -/
def Starts (n : Node) : Prop := HeaderSection n ∨ ItemSection n

/-- The blocks before the first that starts a section, and the rest. -/
def Until (P : Node → Prop) (blocks pre post : List Node) : Prop :=
  blocks = pre ++ post ∧ (∀ n ∈ pre, ¬ P n) ∧ ∀ n, post.head? = some n → P n

/-! ## Bodies and schemas -/

/-- `+ Body` -/
def BodyItem (n : Node) : Prop := ∃ s, ItemLine n s ∧ BodyLine s

/-- `+ Schema` -/
def SchemaItem (n : Node) : Prop := ∃ s, ItemLine n s ∧ SchemaLine s

/-- The text of a body or schema section: the lines after the first, then all blocks up to one that starts a section. -/
def Asset (source : Bytes) (n : Node) (v : Bytes) : Prop :=
  ∃ sig blocks pre post rest, Parts n sig blocks ∧ Until Starts blocks pre post ∧ Remainder sig.text rest ∧
    v = lines rest ++ (pre.map (content source)).flatten

/-- A paragraph or a block of code. -/
def TextBlock (n : Node) : Prop := n.kind = .paragraph ∨ n.kind = .code

/-- The blocks that continue a body that `l` follows: all paragraphs and blocks of code directly after it; one block that
is neither these nor a part of the payload may come in between. -/
def Continues (l c : List Node) : Prop :=
  ∃ rest, (∀ n ∈ c, TextBlock n) ∧ (∀ n, rest.head? = some n → ¬ TextBlock n) ∧
    ((l = c ++ rest ∧ (c = [] → ∀ n, rest.head? = some n → PayloadPart n)) ∨
      ∃ y, l = y :: c ++ rest ∧ ¬ TextBlock y ∧ ¬ PayloadPart y)

/-- Such a block as part of the body: it is made to end with an empty line. -/
def closed (c : Bytes) : Bytes :=
  c ++ if [asc '\n', asc '\n'] <:+ c then [] else if [asc '\n'] <:+ c then [asc '\n'] else [asc '\n', asc '\n']

/-! ## Headers -/

/-- The value of the last header of that name, empty if there is none. -/
def HeaderValue (hs : List References.Header) (name v : Bytes) : Prop :=
  (∃ a b, hs = a ++ (name, v) :: b ∧ ∀ h ∈ b, h.1 ≠ name) ∨ ((∀ h ∈ hs, h.1 ≠ name) ∧ v = [])

end Verif.Spec.Payload
