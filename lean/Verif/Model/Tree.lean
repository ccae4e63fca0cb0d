import Verif.Model.LineIndex
/-!
Positioned ("red") syntax trees: the part of `rowan` 0.15's cursor API the service uses.
A red node is a green node with its offset and the chain of its ancestors.
`rowan` is third-party code without source offline; the definitions are the trusted reading of its documentation.
-/
namespace Verif

/-- A node with its offset, without its ancestors. -/
structure Frame where
  kind : Kind
  cs : List Green
  off : Nat
  deriving Repr, Inhabited

/-- `rowan::SyntaxNode`: a node and the chain of its ancestors, nearest first. -/
structure Red where
  self : Frame
  up : List Frame
  deriving Repr, Inhabited

/-- `rowan::SyntaxToken`: a token and the chain of its ancestors, nearest first. -/
structure Tok where
  kind : Kind
  text : Text
  off : Nat
  up : List Frame
  deriving Repr, Inhabited

/-- `rowan::NodeOrToken<SyntaxNode, SyntaxToken>`. -/
inductive El where
  | node (r : Red)
  | tok (t : Tok)
  deriving Repr, Inhabited

/-- `TextRange::end` of a node. -/
def Frame.stop (f : Frame) : Nat := f.off + bytes (Green.textL f.cs)

/-- `SyntaxNode::new_root`. -/
def Red.root (g : Green) : Red := ⟨⟨g.kind, g.children, 0⟩, []⟩

namespace Red

/-- `SyntaxNode::kind`. -/
def kind (r : Red) : Kind := r.self.kind
/-- `text_range().start()`. -/
def start (r : Red) : Nat := r.self.off
/-- `text_range().end()`. -/
def stop (r : Red) : Nat := r.self.stop
/-- `SyntaxNode::green`. -/
def green (r : Red) : Green := .node r.self.kind r.self.cs

/-- `SyntaxNode::parent`. -/
def parent (r : Red) : Option Red :=
  match r.up with
  | [] => none
  | f :: up => some ⟨f, up⟩

end Red

/-- A frame chain as the list of nodes it denotes, nearest first. -/
def redsOf : List Frame → List Red
  | [] => []
  | f :: up => ⟨f, up⟩ :: redsOf up

/-- `SyntaxNode::ancestors`: the node itself, then its ancestors. -/
def Red.ancestors (r : Red) : List Red := redsOf (r.self :: r.up)

/-- `SyntaxToken::parent`. -/
def Tok.parent (t : Tok) : Option Red :=
  match t.up with
  | [] => none
  | f :: up => some ⟨f, up⟩

/-- `text_range().end()` of a token. -/
def Tok.stop (t : Tok) : Nat := t.off + bytes t.text

/-- `text_range().start()` of an element. -/
def El.start : El → Nat
  | .node n => n.start
  | .tok t => t.off

/-- `text_range().end()` of an element. -/
def El.stop : El → Nat
  | .node n => n.stop
  | .tok t => t.stop

/-- `SyntaxElement::kind`. -/
def El.kind : El → Kind
  | .node n => n.kind
  | .tok t => t.kind

/-- The positioned elements of a child list at an offset. -/
def childEls (up : List Frame) : Nat → List Green → List El
  | _, [] => []
  | off, .tok k t :: gs => .tok ⟨k, t, off, up⟩ :: childEls up (off + bytes t) gs
  | off, .node k cs :: gs => .node ⟨⟨k, cs, off⟩, up⟩ :: childEls up (off + bytes (Green.textL cs)) gs

/-- `SyntaxNode::children_with_tokens`. -/
def Red.els (r : Red) : List El := childEls (r.self :: r.up) r.self.off r.self.cs

/-- `SyntaxNode::children`: the child nodes. -/
def Red.children (r : Red) : List Red :=
  r.els.filterMap fun | .node n => some n | .tok _ => none

/-- The child tokens (`children_with_tokens().filter_map(into_token)`). -/
def Red.childToks (r : Red) : List Tok :=
  r.els.filterMap fun | .node _ => none | .tok t => some t

/-- `rowan::ast::support::token(node, kind)`: the first child token of the kind. -/
def Red.token (r : Red) (k : Kind) : Option Tok := r.childToks.find? fun t => t.kind == k

mutual
/-- The nodes of an element in preorder, positioned. -/
def descG (up : List Frame) (off : Nat) : Green → List Red
  | .tok _ _ => []
  | .node k cs => ⟨⟨k, cs, off⟩, up⟩ :: descL (⟨k, cs, off⟩ :: up) off cs
/-- The nodes of a list of elements in preorder, positioned. -/
def descL (up : List Frame) (off : Nat) : List Green → List Red
  | [] => []
  | g :: gs => descG up off g ++ descL up (off + bytes g.text) gs
end

/-- `SyntaxNode::descendants`: the node itself and all nodes below it, in preorder. -/
def Red.descendants (r : Red) : List Red := r :: descL (r.self :: r.up) r.self.off r.self.cs

mutual
/-- The tokens of an element in document order, positioned. -/
def toksG (up : List Frame) (off : Nat) : Green → List Tok
  | .tok k t => [⟨k, t, off, up⟩]
  | .node k cs => toksLs (⟨k, cs, off⟩ :: up) off cs
/-- The tokens of a list of elements in document order, positioned. -/
def toksLs (up : List Frame) (off : Nat) : List Green → List Tok
  | [] => []
  | g :: gs => toksG up off g ++ toksLs up (off + bytes g.text) gs
end

/-- `descendants_with_tokens().filter_map(into_token)`: all tokens below a node, in document order. -/
def Red.tokens (r : Red) : List Tok := toksLs (r.self :: r.up) r.self.off r.self.cs

/-- `rowan::TokenAtOffset`. -/
inductive AtOffset where
  | none
  | single (t : Tok)
  | between (l r : Tok)
  deriving Repr

/-- `SyntaxNode::token_at_offset`: panics when the offset is not in the range of the node; otherwise the
(non-empty) tokens that touch the offset, at most two of them.
Simplification: `rowan` descends through the children that touch the offset; searching the token sequence finds the
same tokens. -/
def Red.tokenAtOffset (r : Red) (off : Nat) : Ans AtOffset :=
  if r.start ≤ off ∧ off ≤ r.stop then
    match r.tokens.filter fun t => t.text != [] && t.off ≤ off && off ≤ t.stop with
    | [] => .done .none
    | [t] => .done (.single t)
    | l :: t :: _ => .done (.between l t)
  else .panic

/-- `rowan::ast::SyntaxNodePtr` (`SymbolItemKey`, `/repo/crates/service/src/binder.rs:585-595`): kind and range. -/
structure Key where
  kind : Kind
  start : Nat
  stop : Nat
  deriving DecidableEq, Repr, Inhabited

/-- `SyntaxNodePtr::new(&node)`. -/
def Red.key (r : Red) : Key := ⟨r.kind, r.start, r.stop⟩

/-- `SyntaxNodePtr::to_node(&root)`; `none` is its panic.
Simplification: `rowan` descends from the root through the child covering the range and takes the first node that
matches; for non-empty ranges that is the first match in preorder. -/
def Key.toNode (k : Key) (root : Red) : Option Red := root.descendants.find? fun n => n.key == k

/-- `/repo/crates/service/src/features/mod.rs:23-47` (`find_meaningful_token`): the token under the cursor;
between two tokens, the one that is neither blank nor a parenthesis, if there is exactly one. -/
def findMeaningfulToken (src : Text) (root : Red) (p : Pos) : Ans (Option Tok) :=
  match lspPosToRowan src p with
  | none => .done none
  | some off =>
    match root.tokenAtOffset off with
    | .panic => .panic
    | .done .none => .done none
    | .done (.single t) => .done (some t)
    | .done (.between l r) =>
      let lc := l.kind.isTrivia || l.kind.isPunc
      let rc := r.kind.isTrivia || r.kind.isPunc
      if (lc && rc) || (!lc && !rc) then .done none
      else if lc then .done (some r)
      else .done (some l)

end Verif
