/-!
Syntax kinds and green trees.
Models `/repo/crates/syntax/src/kind.rs`, `/repo/crates/syntax/src/lib.rs` and the immutable
("green") trees of the `rowan` crate that the parser builds.
Source text is modelled as `List Char` (a Rust `&str` is a sequence of Unicode scalar values).
-/
namespace Verif

/-- `/repo/crates/syntax/src/kind.rs:5-78` (`enum SyntaxKind`), same order. -/
inductive Kind where
  | WHITESPACE | LINE_COMMENT | BLOCK_COMMENT | L_PAREN | R_PAREN | KEYWORD | INSTR_NAME | IDENT
  | STRING | INT | UNSIGNED_INT | FLOAT | NUM_TYPE | VEC_TYPE | REF_TYPE | HEAP_TYPE | SHARE
  | MEM_ARG | ERROR
  | MODULE_NAME | NAME | VAL_TYPE | FUNC_TYPE | PARAM | RESULT | TABLE_TYPE | MEMORY_TYPE
  | GLOBAL_TYPE | BLOCK_TYPE | PLAIN_INSTR | BLOCK_BLOCK | BLOCK_LOOP | BLOCK_IF | BLOCK_IF_THEN
  | BLOCK_IF_ELSE | OPERAND | TYPE_USE | LIMITS | IMPORT | EXPORT | IMPORT_DESC_TYPE_USE
  | IMPORT_DESC_TABLE_TYPE | IMPORT_DESC_MEMORY_TYPE | IMPORT_DESC_GLOBAL_TYPE | EXPORT_DESC_FUNC
  | EXPORT_DESC_TABLE | EXPORT_DESC_MEMORY | EXPORT_DESC_GLOBAL | INDEX | LOCAL | MEM_USE | OFFSET
  | ELEM | ELEM_LIST | ELEM_EXPR | TABLE_USE | DATA | MODULE | MODULE_FIELD_DATA
  | MODULE_FIELD_ELEM | MODULE_FIELD_EXPORT | MODULE_FIELD_FUNC | MODULE_FIELD_GLOBAL
  | MODULE_FIELD_IMPORT | MODULE_FIELD_MEMORY | MODULE_FIELD_START | MODULE_FIELD_TABLE
  | MODULE_FIELD_TYPE | ROOT
  deriving DecidableEq, Repr, Inhabited

/-- Source text. -/
abbrev Text := List Char

/-- Notation: `t!"abc"` is the character list `['a', 'b', 'c']`. -/
macro:max "t!" s:str : term => do
  let cs ← s.getString.toList.toArray.mapM fun c => `($(Lean.Syntax.mkCharLit c))
  `(([$cs,*] : List Char))

/-- Rowan's green elements (`NodeOrToken<GreenNode, GreenToken>`), built by
`/repo/crates/parser/src/parser/mod.rs:59-69` (`tok`, `node`). -/
inductive Green where
  | tok (kind : Kind) (text : Text)
  | node (kind : Kind) (children : List Green)
  deriving Repr, Inhabited

/-- Length in UTF-8 bytes of a text: rowan's `TextSize`, winnow's `location()` unit. -/
def bytes (t : Text) : Nat := (t.map Char.utf8Size).sum

namespace Green

/-- The kind of an element (`rowan::NodeOrToken::kind`). -/
def kind : Green → Kind
  | tok k _ => k
  | node k _ => k

mutual
/-- Concatenated token text of an element (`rowan`'s `text()` / `to_string()`). -/
def text : Green → Text
  | tok _ t => t
  | node _ cs => textL cs
/-- Concatenated token text of a list of elements. -/
def textL : List Green → Text
  | [] => []
  | g :: gs => text g ++ textL gs
end

mutual
/-- All tokens of an element in document order (`descendants_with_tokens` filtered to tokens). -/
def toks : Green → List (Kind × Text)
  | tok k t => [(k, t)]
  | node _ cs => toksL cs
/-- All tokens of a list of elements in document order. -/
def toksL : List Green → List (Kind × Text)
  | [] => []
  | g :: gs => toks g ++ toksL gs
end

mutual
/-- All nodes inside an element, itself included (`SyntaxNode::descendants`), with their children. -/
def nodes : Green → List (Kind × List Green)
  | tok _ _ => []
  | node k cs => (k, cs) :: nodesL cs
/-- All nodes inside a list of elements. -/
def nodesL : List Green → List (Kind × List Green)
  | [] => []
  | g :: gs => nodes g ++ nodesL gs
end

/-- The child elements (`GreenNode::children`); a token has none. -/
def children : Green → List Green
  | tok _ _ => []
  | node _ cs => cs

/-- Whether the element is a node. -/
def isNode : Green → Bool
  | tok _ _ => false
  | node _ _ => true

end Green

/-- `/repo/crates/syntax/src/lib.rs:28-35` (`is_trivia`), on kinds. -/
def Kind.isTrivia : Kind → Bool
  | .WHITESPACE | .LINE_COMMENT | .BLOCK_COMMENT => true
  | _ => false

/-- `/repo/crates/syntax/src/lib.rs:39-41` (`is_punc`), on kinds. -/
def Kind.isPunc : Kind → Bool
  | .L_PAREN | .R_PAREN => true
  | _ => false

end Verif
