import Verif.Model.ByteBuffer
/-!
# The builder of the Markdown tree: packages/apib-parser/src/markdown-parser/MarkdownParser.cc, MarkdownNode.{h,cc}

Sundown (not part of the repository) reads the source and calls the builder back; here the sequence of callbacks is the
input.  The static trampolines (MarkdownParser.cc:93-100 and the like) only convert arguments and are not modelled.
`size_t` is unbounded except in the subtraction of MarkdownParser.cc:344.
-/
namespace Verif.Markdown
open Verif Verif.ByteBuffer

/-- `MarkdownNodeType`, MarkdownNode.h:22-36 (the kinds of table are never built, MarkdownParser.cc:75-77). -/
inductive Kind
  | root | code | quote | html | header | hrule | item | paragraph
deriving Repr, DecidableEq

/-- `MarkdownNode`, MarkdownNode.h:47-104.  The pointer to the parent is implied by the position in the tree. -/
inductive Node
  | mk (kind : Kind) (text : Bytes) (data : Int) (sourceMap : List Range) (children : List Node)
deriving Repr

namespace Node
/-- MarkdownNode.h:53. -/
def kind : Node → Kind | mk k _ _ _ _ => k
/-- MarkdownNode.h:56. -/
def text : Node → Bytes | mk _ t _ _ _ => t
/-- MarkdownNode.h:59. -/
def data : Node → Int | mk _ _ d _ _ => d
/-- MarkdownNode.h:62. -/
def sourceMap : Node → List Range | mk _ _ _ m _ => m
/-- MarkdownNode.h:75-76. -/
def children : Node → List Node | mk _ _ _ _ c => c
/-- Assignment to MarkdownNode.h:56. -/
def setText : Node → Bytes → Node | mk k _ d m c, t => mk k t d m c
/-- Assignment to MarkdownNode.h:59. -/
def setData : Node → Int → Node | mk k t _ m c, d => mk k t d m c
/-- Assignment to MarkdownNode.h:62. -/
def setMap : Node → List Range → Node | mk k t d _ c, m => mk k t d m c
/-- Assignment to MarkdownNode.h:75-76. -/
def setChildren : Node → List Node → Node | mk k t d m _, c => mk k t d m c
/-- `children().push_back(node)`. -/
def push (n x : Node) : Node := n.setChildren (n.children ++ [x])
end Node

/-- The callbacks that are set, MarkdownParser.cc:61-86. -/
inductive Event
  | header (text : Bytes) (level : Int)
  | beginList (flags : Int)
  | list (text : Bytes) (flags : Int)
  | beginItem (flags : Int)
  | item (text : Bytes) (flags : Int)
  | code (text language : Bytes)
  | paragraph (text : Bytes)
  | hrule
  | html (text : Bytes)
  | beginQuote
  | quote (text : Bytes)
  | parsed (map : List Range)
deriving Repr, DecidableEq

/-- What ends a parse early: the exceptions of MarkdownParser.cc:20-21 and MarkdownNode.cc:44, and undefined behaviour. -/
inductive Fault
  | mismatch | noParent | undefined
deriving Repr, DecidableEq

/-- The state of the builder, MarkdownParser.h: the working node, its ancestors (nearest first) and the flag
    `m_listBlockContext`.  In the code the working node is the last child of its parent already while it is open; here it
    is put there when it is closed or the source ends, since an ancestor is not looked at before. -/
structure State where
  working : Node
  ancestors : List Node
  listBlock : Bool
deriving Repr

/-- `m_workingNode->children().push_back(node)` for a node without children, MarkdownParser.cc:107-108 and the like. -/
def State.leaf (s : State) (k : Kind) (text : Bytes) (data : Int) : State :=
  { s with working := s.working.push (.mk k text data [] []) }

/-- `push_back` followed by `m_workingNode = &m_workingNode->children().back()`, MarkdownParser.cc:155-159, 279-283. -/
def State.down (s : State) (k : Kind) (data : Int) : State :=
  ⟨.mk k [] data [] [], s.working :: s.ancestors, s.listBlock⟩

/-- `m_workingNode = &m_workingNode->parent()`, MarkdownParser.cc:190, 307. -/
def State.up (s : State) : Except Fault State :=
  match s.ancestors with
  | [] => .error .noParent
  | p :: r => .ok ⟨p.push s.working, r, s.listBlock⟩

/-- Subtraction of `size_t`. -/
def sub64 (a b : Nat) : Nat := if b ≤ a then a - b else a + 2 ^ 64 - b

/-- `std::string::find`: the first position where `needle` occurs. -/
def find (hay needle : Bytes) : Option Nat := (List.range (hay.length + 1)).find? fun i => (hay.drop i).take needle.length = needle

/-- The source map that is recorded for a block, MarkdownParser.cc:342-356; `none` if it is ignored. -/
def recorded (sourceLength : Nat) (map : List Range) (last : Range) : Option (List Range) :=
  if last.location + last.length > sourceLength then
    let workMapLength := sub64 sourceLength last.location
    if workMapLength = 0 then none else some (map.dropLast ++ [{ last with length := workMapLength }])
  else some map

/-- Sharing the source map with the first child of a list item, MarkdownParser.cc:358-378. -/
def share (source : Bytes) (map : List Range) (front : Range) (n : Node) : Node :=
  match n.kind, n.children with
  | .item, c :: cs =>
    if c.sourceMap.isEmpty then
      (match find (mapBytesRangeSet map source) c.text with
       | some pos => n.setChildren (c.setMap (append c.sourceMap [⟨front.location + pos, c.text.length⟩]) :: cs)
       | none => n.setChildren (c.setMap (append c.sourceMap map) :: cs))
    else n
  | _, _ => n

/-- `blockDidParse`, MarkdownParser.cc:322-378.  `back()` of an empty set is undefined. -/
def didParse (source : Bytes) (map : List Range) (s : State) : Except Fault State :=
  if s.listBlock then .ok { s with listBlock := false }
  else match s.working.children.getLast? with
    | none => .ok s
    | some n =>
      match map.getLast?, map.head? with
      | some last, some front =>
        (match recorded source.length map last with
         | none => .ok s
         | some work => .ok { s with working := s.working.setChildren (s.working.children.dropLast ++
             [share source map front (n.setMap (append n.sourceMap work))]) })
      | _, _ => .error .undefined

/-- One callback. -/
def step (source : Bytes) (s : State) : Event → Except Fault State
  -- `renderHeader`, MarkdownParser.cc:102-109
  | .header text level => .ok (s.leaf .header text level)
  -- `beginList`, MarkdownParser.cc:120-124
  | .beginList _ => .ok s
  -- `renderList`, MarkdownParser.cc:135-138
  | .list _ _ => .ok { s with listBlock := true }
  -- `beginListItem`, MarkdownParser.cc:149-160
  | .beginItem flags => .ok (s.down .item flags)
  -- `renderListItem`, MarkdownParser.cc:171-191
  | .item text flags =>
    if s.working.kind ≠ .item then .error .mismatch
    else
      let w := match s.working.children with
        | [] => s.working.setChildren [.mk .paragraph text 0 [] []]
        | c :: cs => if c.kind ≠ Kind.paragraph then s.working.setChildren (.mk .paragraph text 0 [] [] :: c :: cs) else s.working
      { s with working := w.setData flags }.up
  -- `renderBlockCode`, MarkdownParser.cc:202-209
  | .code text _ => .ok (s.leaf .code text 0)
  -- `renderParagraph`, MarkdownParser.cc:220-227
  | .paragraph text => .ok (s.leaf .paragraph text 0)
  -- `renderHorizontalRule`, MarkdownParser.cc:238-245
  | .hrule => .ok (s.leaf .hrule [] 0)
  -- `renderHTML`, MarkdownParser.cc:256-263
  | .html text => .ok (s.leaf .html text 0)
  -- `beginQuote`, MarkdownParser.cc:274-284
  | .beginQuote => .ok (s.down .quote 0)
  -- `renderQuote`, MarkdownParser.cc:295-308
  | .quote text => if s.working.kind ≠ .quote then .error .mismatch else { s with working := s.working.setText text }.up
  -- `blockDidParse`, MarkdownParser.cc:322-378
  | .parsed map => didParse source map s

/-- All callbacks in order; an exception ends the parse. -/
def run (source : Bytes) (s : State) : List Event → Except Fault State
  | [] => .ok s
  | e :: r => match step source s e with
    | .ok s' => run source s' r
    | .error f => .error f

/-- The tree when the source ends: nodes that are still open are the last children of their parents. -/
def finish (w : Node) : List Node → Node
  | [] => w
  | p :: r => finish (p.push w) r

/-- `MarkdownParser::parse`, MarkdownParser.cc:37-59, given the callbacks that Sundown makes. -/
def parse (source : Bytes) (events : List Event) : Except Fault Node :=
  match run source ⟨.mk .root [] 0 [⟨0, source.length⟩] [], [], false⟩ events with
  | .ok s => .ok (finish s.working s.ancestors)
  | .error f => .error f

end Verif.Markdown
