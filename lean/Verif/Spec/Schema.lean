import Verif.Model.Syntax
/-!
Specification: the shape of syntax trees.  For every node kind the kinds its children may have, and which of its
children may come first.  Written down from the grammar of the WebAssembly text format as the `ast` layer of the
code (`/repo/crates/syntax/src/ast`) presumes it; independent of the parser's functions.
-/
namespace Verif.Spec
open Kind

/-- Blank tokens and skipped garbage, which may occur between any two parts of a construct. -/
def junk : List Kind := [WHITESPACE, LINE_COMMENT, BLOCK_COMMENT, ERROR]
/-- Junk, parentheses and keywords: the material of a parenthesised form. -/
def form : List Kind := junk ++ [L_PAREN, R_PAREN, KEYWORD]
/-- Instruction nodes. -/
def instrKinds : List Kind := [PLAIN_INSTR, BLOCK_BLOCK, BLOCK_LOOP, BLOCK_IF]
/-- Module field nodes. -/
def fieldKinds : List Kind :=
  [MODULE_FIELD_DATA, MODULE_FIELD_ELEM, MODULE_FIELD_EXPORT, MODULE_FIELD_FUNC, MODULE_FIELD_GLOBAL,
   MODULE_FIELD_IMPORT, MODULE_FIELD_MEMORY, MODULE_FIELD_START, MODULE_FIELD_TABLE, MODULE_FIELD_TYPE]

/-- The kinds of elements that may occur directly below a node of the given kind. -/
def allowed : Kind → List Kind
  | MODULE_NAME | NAME => [STRING]
  | VAL_TYPE => [NUM_TYPE, VEC_TYPE, REF_TYPE]
  | FUNC_TYPE => form ++ [PARAM, RESULT]
  | PARAM | LOCAL => form ++ [IDENT, VAL_TYPE]
  | RESULT => form ++ [VAL_TYPE]
  | TABLE_TYPE => junk ++ [LIMITS, REF_TYPE]
  | MEMORY_TYPE => [LIMITS]
  | GLOBAL_TYPE => form ++ [VAL_TYPE]
  | LIMITS => junk ++ [UNSIGNED_INT, SHARE]
  | BLOCK_TYPE => [RESULT, TYPE_USE]
  | PLAIN_INSTR => junk ++ [L_PAREN, R_PAREN, INSTR_NAME, OPERAND]
  | BLOCK_BLOCK | BLOCK_LOOP => form ++ [IDENT, BLOCK_TYPE] ++ instrKinds
  | BLOCK_IF => form ++ [IDENT, BLOCK_TYPE, BLOCK_IF_THEN, BLOCK_IF_ELSE] ++ instrKinds
  | BLOCK_IF_THEN => form ++ instrKinds
  | BLOCK_IF_ELSE => form ++ [IDENT] ++ instrKinds
  | OPERAND => [INT, FLOAT, STRING, IDENT, MEM_ARG, HEAP_TYPE, TYPE_USE] ++ instrKinds
  | TYPE_USE => form ++ [INDEX, PARAM, RESULT]
  | IMPORT => form ++ [MODULE_NAME, NAME]
  | EXPORT => form ++ [NAME]
  | IMPORT_DESC_TYPE_USE => form ++ [IDENT, TYPE_USE]
  | IMPORT_DESC_TABLE_TYPE => form ++ [IDENT, TABLE_TYPE]
  | IMPORT_DESC_MEMORY_TYPE => form ++ [IDENT, MEMORY_TYPE]
  | IMPORT_DESC_GLOBAL_TYPE => form ++ [IDENT, GLOBAL_TYPE]
  | EXPORT_DESC_FUNC | EXPORT_DESC_TABLE | EXPORT_DESC_MEMORY | EXPORT_DESC_GLOBAL => form ++ [INDEX]
  | MEM_USE | TABLE_USE | MODULE_FIELD_START => form ++ [INDEX]
  | INDEX => [IDENT, UNSIGNED_INT]
  | OFFSET | ELEM_EXPR => form ++ instrKinds
  | ELEM => form ++ [ELEM_EXPR, INDEX]
  | ELEM_LIST => junk ++ [KEYWORD, INDEX, REF_TYPE, ELEM_EXPR]
  | DATA => form ++ [STRING]
  | MODULE => form ++ [IDENT] ++ fieldKinds
  | MODULE_FIELD_DATA => form ++ [IDENT, MEM_USE, OFFSET, STRING]
  | MODULE_FIELD_ELEM => form ++ [IDENT, TABLE_USE, OFFSET, ELEM_LIST]
  | MODULE_FIELD_EXPORT =>
      form ++ [NAME, EXPORT_DESC_FUNC, EXPORT_DESC_TABLE, EXPORT_DESC_MEMORY, EXPORT_DESC_GLOBAL]
  | MODULE_FIELD_FUNC => form ++ [IDENT, IMPORT, EXPORT, TYPE_USE, LOCAL] ++ instrKinds
  | MODULE_FIELD_GLOBAL => form ++ [IDENT, IMPORT, EXPORT, GLOBAL_TYPE] ++ instrKinds
  | MODULE_FIELD_IMPORT =>
      form ++ [MODULE_NAME, NAME, IMPORT_DESC_TYPE_USE, IMPORT_DESC_TABLE_TYPE, IMPORT_DESC_MEMORY_TYPE,
        IMPORT_DESC_GLOBAL_TYPE]
  | MODULE_FIELD_MEMORY => form ++ [IDENT, IMPORT, EXPORT, MEMORY_TYPE, DATA]
  | MODULE_FIELD_TABLE => form ++ [IDENT, IMPORT, EXPORT, REF_TYPE, ELEM, TABLE_TYPE]
  | MODULE_FIELD_TYPE => form ++ [IDENT, FUNC_TYPE]
  | ROOT => junk ++ [MODULE]
  -- token kinds never label a node
  | WHITESPACE | LINE_COMMENT | BLOCK_COMMENT | L_PAREN | R_PAREN | KEYWORD | INSTR_NAME | IDENT | STRING | INT
  | UNSIGNED_INT | FLOAT | NUM_TYPE | VEC_TYPE | REF_TYPE | HEAP_TYPE | SHARE | MEM_ARG | ERROR => []

/-- Tokens that are identifiers, numbers or memory arguments. -/
def isLiteral : Kind → Bool
  | IDENT | INT | UNSIGNED_INT | FLOAT | MEM_ARG => true
  | _ => false

/-- How deep, at most, the text of a node of the given kind is below its first token, literals being one deeper than
other tokens: `0` means that the node starts with a parenthesis, a word or a string.  A first child that is a node has
a smaller rank. -/
def rank : Kind → Nat
  | INDEX | LIMITS | GLOBAL_TYPE | TYPE_USE | OFFSET | ELEM_EXPR | BLOCK_IF_THEN | ROOT => 1
  | BLOCK_TYPE | OPERAND | TABLE_TYPE | MEMORY_TYPE | ELEM_LIST => 2
  | _ => 0

/-- Kinds of nodes that can be without any text: the file, and the `then` part of an unparenthesised `if`. -/
def mayBeEmpty : Kind → Bool
  | ROOT | BLOCK_IF_THEN => true
  | _ => false

/-- The first child of a node: a token, a literal only for a node of positive rank; or a node of smaller rank. -/
def HeadOk (r : Nat) : List Green → Prop
  | [] => True
  | .tok k _ :: _ => isLiteral k = true → 0 < r
  | .node k _ :: _ => rank k < r

/-- A named parameter or local has at most one type. -/
def NamedOk (k : Kind) (cs : List Green) : Prop :=
  k = PARAM ∨ k = LOCAL → (∃ g ∈ cs, g.kind = IDENT) → (cs.filter fun g => g.kind == VAL_TYPE).length ≤ 1

/-- The shape of one node. -/
def NodeOk (k : Kind) (cs : List Green) : Prop :=
  (∀ g ∈ cs, g.kind ∈ allowed k) ∧ HeadOk (rank k) cs ∧ (mayBeEmpty k = false → cs ≠ []) ∧ NamedOk k cs

mutual
/-- Every node of the tree has its shape. -/
def Shaped : Green → Prop
  | .tok _ _ => True
  | .node k cs => NodeOk k cs ∧ ShapedL cs
/-- Every tree of the list has its shape. -/
def ShapedL : List Green → Prop
  | [] => True
  | g :: gs => Shaped g ∧ ShapedL gs
end

end Verif.Spec
