import Verif.Model.Markdown
import Verif.Spec.Ranges
/-!
# What a sequence of Markdown callbacks describes (specification)
-/
namespace Verif.Spec.Markdown
open Verif Verif.Markdown Verif.ByteBuffer Verif.Spec

/-- A block as it is described by the callbacks: its kind, text and data, the source maps reported for it, in order, and
    the blocks in it. -/
inductive Tree
  | mk (kind : Kind) (text : Bytes) (data : Int) (notes : List (List Range)) (children : List Tree)

namespace Tree
def kind : Tree → Kind | mk k _ _ _ _ => k
/-- One more source map for the block. -/
def note : Tree → List Range → Tree | mk k t d ns c, m => mk k t d (ns ++ [m]) c
end Tree

/-- The block that a callback without begin and end describes. -/
inductive Leaf : Event → Kind → Bytes → Int → Prop
  | header (t l) : Leaf (.header t l) .header t l
  | code (t l) : Leaf (.code t l) .code t 0
  | paragraph (t) : Leaf (.paragraph t) .paragraph t 0
  | hrule : Leaf .hrule .hrule [] 0
  | html (t) : Leaf (.html t) .html t 0

/-- The content of a list item starts with a paragraph: if it does not do so by itself, the text of the item is put there as
    a paragraph. -/
def withParagraph (text : Bytes) : List Tree → List Tree
  | c :: cs => if c.kind = .paragraph then c :: cs else .mk .paragraph text 0 [] [] :: c :: cs
  | [] => [.mk .paragraph text 0 [] []]

/-- `Describes events trees`: a well-bracketed sequence of callbacks and the blocks it describes.  A source map that is reported
    belongs to the last block of the enclosing block that is complete; the one reported right after the end of a list is that of
    the list, which is no block of the tree. -/
inductive Describes : List Event → List Tree → Prop
  | nil : Describes [] []
  | leaf {es ts e k t d} : Describes es ts → Leaf e k t d → Describes (es ++ [e]) (ts ++ [.mk k t d [] []])
  | quote {es ts inner cs} (text) : Describes es ts → Describes inner cs →
      Describes (es ++ (.beginQuote :: inner ++ [.quote text])) (ts ++ [.mk .quote text 0 [] cs])
  | item {es ts inner cs} (f text flags) : Describes es ts → Describes inner cs →
      Describes (es ++ (.beginItem f :: inner ++ [.item text flags])) (ts ++ [.mk .item [] flags [] (withParagraph text cs)])
  | beginList {es ts} (f) : Describes es ts → Describes (es ++ [.beginList f]) ts
  | list {es ts} (text f m) : Describes es ts → Describes (es ++ [.list text f, .parsed m]) ts
  | note {es ts t} (m) : Describes es (ts ++ [t]) → Describes (es ++ [.parsed m]) (ts ++ [t.note m])
  | unused {es} (m) : Describes es [] → Describes (es ++ [.parsed m]) []

/-- A source map as Sundown reports it: not empty; only the last range may go beyond the end of the source (because of the
    newline that Sundown adds), and it does not start beyond the end. -/
def Sane (length : Nat) (m : List Range) : Prop :=
  ∃ rs last, m = rs ++ [last] ∧ last.location ≤ length ∧ ∀ r ∈ rs, r.location + r.length ≤ length

/-- The source map ends with a range that is only the newline added. -/
def Artificial (length : Nat) (m : List Range) : Prop := ∃ rs last, m = rs ++ [last] ∧ last.location = length ∧ 0 < last.length

/-- The bytes of the source that a reported source map stands for. -/
noncomputable def heard (length : Nat) (m : List Range) : List Nat :=
  open Classical in if Artificial length m then [] else (positions m).filter (· < length)

/-- The source map of the first block of a list item that has none of its own, taken from the map `m` of the item: where its text first occurs in
    what `m` maps, or else all of `m`. -/
def Borrowed (source : Bytes) (m : List Range) (text : Bytes) (map : List Range) : Prop :=
  (∃ a b front, mapBytesRangeSet m source = a ++ text ++ b ∧ (∀ a' b', mapBytesRangeSet m source = a' ++ text ++ b' → a.length ≤ a'.length) ∧
      m.head? = some front ∧ map = [⟨front.location + a.length, text.length⟩]) ∨
  ((∀ a b, mapBytesRangeSet m source ≠ a ++ text ++ b) ∧ map = m ∧ m ≠ [])

/-- The source map of a node: the bytes of all source maps reported for it, in order; if there are none, that is empty, or it is
    borrowed from the list item that the node is first in. -/
def OwnMap (source : Bytes) (lender : Option (List Range)) (text : Bytes) (notes : List (List Range)) (map : List Range) : Prop :=
  ((∃ m ∈ notes, ¬Artificial source.length m) ∧ map ≠ [] ∧ positions map = notes.flatMap (heard source.length)) ∨
  ((∀ m ∈ notes, Artificial source.length m) ∧
    match lender with
    | none => map = []
    | some m => Borrowed source m text map)

/-- The first reported source map that counts. -/
def First (length : Nat) (notes : List (List Range)) (m : Option (List Range)) : Prop :=
  match m with
  | none => ∀ x ∈ notes, Artificial length x
  | some m => ∃ a b, notes = a ++ m :: b ∧ ¬Artificial length m ∧ ∀ x ∈ a, Artificial length x

mutual
/-- The node of the tree for a block: same kind, text, data and blocks in it, and its source map. -/
def Renders (source : Bytes) (lender : Option (List Range)) : Tree → Node → Prop
  | .mk k text data notes cs, n =>
    n.kind = k ∧ n.text = text ∧ n.data = data ∧ OwnMap source lender text notes n.sourceMap ∧
    ∃ m, (if k = .item then First source.length notes m else m = none) ∧ RendersAll source m cs n.children
termination_by structural t => t
def RendersAll (source : Bytes) (lender : Option (List Range)) : List Tree → List Node → Prop
  | [], ns => ns = []
  | t :: ts, ns => ∃ x xs, ns = x :: xs ∧ Renders source lender t x ∧ RendersAll source none ts xs
termination_by structural ts => ts
end

/-- The blocks that are open after a sequence of callbacks, innermost first; `none` if an end does not match the innermost begin. -/
def openBlocks : List Kind → List Event → Option (List Kind)
  | st, [] => some st
  | st, .beginItem _ :: r => openBlocks (.item :: st) r
  | st, .beginQuote :: r => openBlocks (.quote :: st) r
  | .item :: st, .item _ _ :: r => openBlocks st r
  | .quote :: st, .quote _ :: r => openBlocks st r
  | _, .item _ _ :: _ => none
  | _, .quote _ :: _ => none
  | st, _ :: r => openBlocks st r

/-- `x` is `n` or a node below it. -/
inductive Within : Node → Node → Prop
  | self (n) : Within n n
  | child {n c x} : c ∈ n.children → Within c x → Within n x

/-- The ranges are in increasing order, do not overlap and stay inside the source. -/
def Inside (length : Nat) (m : List Range) : Prop :=
  m ≠ [] ∧ (∀ r ∈ m, r.location + r.length ≤ length) ∧ m.Pairwise fun a b => a.location + a.length ≤ b.location

end Verif.Spec.Markdown
