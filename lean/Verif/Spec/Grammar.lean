import Verif.Model.Syntax
/-!
Specification: the grammar of the tree.  For every kind of node the sequences of elements it may be made of, white
space and comments left out; written after the grammar of the WebAssembly text format (with the parts the language
server knows) and not after the parser's functions.
-/
namespace Verif.Spec

/-- One element of a production: a token of a kind, a node of a kind, or a keyword. -/
inductive Term where
  | tok (k : Kind)
  | node (k : Kind)
  | word (w : Text)
  deriving DecidableEq, Repr

/-- The element is such a term. -/
def Term.is : Term → Green → Prop
  | .tok k, .tok k' _ => k' = k
  | .node k, .node k' _ => k' = k
  | .word w, .tok k' t => k' = .KEYWORD ∧ t = w
  | _, _ => False

/-- A part of a production: one of the terms, one of them or nothing, or any number of them. -/
inductive Item where
  | one (ts : List Term)
  | opt (ts : List Term)
  | many (ts : List Term)
  deriving DecidableEq, Repr

/-- The elements are those of the production, in its order. -/
inductive Match : List Item → List Green → Prop
  | nil : Match [] []
  | one {ts t g is l} : t ∈ ts → t.is g → Match is l → Match (.one ts :: is) (g :: l)
  | skip {ts is l} : Match is l → Match (.opt ts :: is) l
  | opt {ts t g is l} : t ∈ ts → t.is g → Match is l → Match (.opt ts :: is) (g :: l)
  | stop {ts is l} : Match is l → Match (.many ts :: is) l
  | more {ts t g is l} : t ∈ ts → t.is g → Match (.many ts :: is) l → Match (.many ts :: is) (g :: l)

/-- A token of the kind. -/
abbrev oneT (k : Kind) : Item := .one [.tok k]
/-- A node of the kind. -/
abbrev oneN (k : Kind) : Item := .one [.node k]
/-- A keyword. -/
abbrev oneW (w : Text) : Item := .one [.word w]
/-- Perhaps a token of the kind. -/
abbrev optT (k : Kind) : Item := .opt [.tok k]
/-- Perhaps a node of the kind. -/
abbrev optN (k : Kind) : Item := .opt [.node k]
/-- Any number of nodes of the kind. -/
abbrev manyN (k : Kind) : Item := .many [.node k]
/-- `(` -/
abbrev lp : Item := oneT .L_PAREN
/-- `)` -/
abbrev rp : Item := oneT .R_PAREN

/-- The instructions. -/
def instrTerms : List Term := [.node .PLAIN_INSTR, .node .BLOCK_BLOCK, .node .BLOCK_LOOP, .node .BLOCK_IF]

/-- The fields of a module. -/
def fieldTerms : List Term :=
  [.node .MODULE_FIELD_DATA, .node .MODULE_FIELD_ELEM, .node .MODULE_FIELD_EXPORT, .node .MODULE_FIELD_FUNC,
    .node .MODULE_FIELD_GLOBAL, .node .MODULE_FIELD_IMPORT, .node .MODULE_FIELD_MEMORY, .node .MODULE_FIELD_START,
    .node .MODULE_FIELD_TABLE, .node .MODULE_FIELD_TYPE]

/-- What an `import` field may import. -/
def importTerms : List Term :=
  [.node .IMPORT_DESC_TYPE_USE, .node .IMPORT_DESC_GLOBAL_TYPE, .node .IMPORT_DESC_MEMORY_TYPE,
    .node .IMPORT_DESC_TABLE_TYPE]

/-- What an `export` field may export. -/
def exportTerms : List Term :=
  [.node .EXPORT_DESC_FUNC, .node .EXPORT_DESC_TABLE, .node .EXPORT_DESC_MEMORY, .node .EXPORT_DESC_GLOBAL]

/-- Any number of instructions. -/
abbrev instrs : Item := .many instrTerms

/-- The productions of a kind of node. -/
def productions : Kind → List (List Item)
  | .ROOT => [[manyN .MODULE]]
  | .MODULE => [[lp, oneW t!"module", optT .IDENT, .many fieldTerms, rp]]
  -- types
  | .VAL_TYPE => [[.one [.tok .NUM_TYPE, .tok .VEC_TYPE, .tok .REF_TYPE]]]
  | .PARAM => [[lp, oneW t!"param", oneT .IDENT, oneN .VAL_TYPE, rp], [lp, oneW t!"param", manyN .VAL_TYPE, rp]]
  | .RESULT => [[lp, oneW t!"result", manyN .VAL_TYPE, rp]]
  | .FUNC_TYPE => [[lp, oneW t!"func", manyN .PARAM, manyN .RESULT, rp]]
  | .LIMITS => [[oneT .UNSIGNED_INT, optT .UNSIGNED_INT, optT .SHARE]]
  | .TABLE_TYPE => [[oneN .LIMITS, oneT .REF_TYPE]]
  | .MEMORY_TYPE => [[oneN .LIMITS]]
  | .GLOBAL_TYPE => [[oneN .VAL_TYPE], [lp, oneW t!"mut", oneN .VAL_TYPE, rp]]
  | .INDEX => [[.one [.tok .IDENT, .tok .UNSIGNED_INT]]]
  | .TYPE_USE =>
    [[lp, oneW t!"type", oneN .INDEX, rp, manyN .PARAM, manyN .RESULT], [oneN .PARAM, manyN .PARAM, manyN .RESULT],
      [oneN .RESULT, manyN .RESULT]]
  | .LOCAL => [[lp, oneW t!"local", oneT .IDENT, oneN .VAL_TYPE, rp], [lp, oneW t!"local", manyN .VAL_TYPE, rp]]
  -- imports and exports
  | .MODULE_NAME => [[oneT .STRING]]
  | .NAME => [[oneT .STRING]]
  | .IMPORT => [[lp, oneW t!"import", oneN .MODULE_NAME, oneN .NAME, rp]]
  | .EXPORT => [[lp, oneW t!"export", oneN .NAME, rp]]
  | .IMPORT_DESC_TYPE_USE => [[lp, oneW t!"func", optT .IDENT, optN .TYPE_USE, rp]]
  | .IMPORT_DESC_GLOBAL_TYPE => [[lp, oneW t!"global", optT .IDENT, oneN .GLOBAL_TYPE, rp]]
  | .IMPORT_DESC_MEMORY_TYPE => [[lp, oneW t!"memory", optT .IDENT, oneN .MEMORY_TYPE, rp]]
  | .IMPORT_DESC_TABLE_TYPE => [[lp, oneW t!"table", optT .IDENT, oneN .TABLE_TYPE, rp]]
  | .EXPORT_DESC_FUNC => [[lp, oneW t!"func", oneN .INDEX, rp]]
  | .EXPORT_DESC_TABLE => [[lp, oneW t!"table", oneN .INDEX, rp]]
  | .EXPORT_DESC_MEMORY => [[lp, oneW t!"memory", oneN .INDEX, rp]]
  | .EXPORT_DESC_GLOBAL => [[lp, oneW t!"global", oneN .INDEX, rp]]
  -- instructions
  | .PLAIN_INSTR => [[lp, oneT .INSTR_NAME, manyN .OPERAND, rp], [oneT .INSTR_NAME, manyN .OPERAND]]
  | .OPERAND =>
    [[.one ([.tok .INT, .tok .FLOAT, .tok .STRING, .tok .IDENT, .tok .MEM_ARG, .tok .HEAP_TYPE, .node .TYPE_USE]
      ++ instrTerms)]]
  | .BLOCK_TYPE => [[.one [.node .RESULT, .node .TYPE_USE]]]
  | .BLOCK_BLOCK =>
    [[oneW t!"block", optT .IDENT, optN .BLOCK_TYPE, instrs, oneW t!"end", optT .IDENT],
      [lp, oneW t!"block", optT .IDENT, optN .BLOCK_TYPE, instrs, rp, optT .IDENT]]
  | .BLOCK_LOOP =>
    [[oneW t!"loop", optT .IDENT, optN .BLOCK_TYPE, instrs, oneW t!"end", optT .IDENT],
      [lp, oneW t!"loop", optT .IDENT, optN .BLOCK_TYPE, instrs, rp, optT .IDENT]]
  | .BLOCK_IF =>
    [[oneW t!"if", optT .IDENT, optN .BLOCK_TYPE, oneN .BLOCK_IF_THEN, optN .BLOCK_IF_ELSE, oneW t!"end", optT .IDENT],
      [lp, oneW t!"if", optT .IDENT, optN .BLOCK_TYPE, instrs, oneN .BLOCK_IF_THEN, optN .BLOCK_IF_ELSE, rp]]
  | .BLOCK_IF_THEN => [[instrs], [lp, oneW t!"then", instrs, rp]]
  | .BLOCK_IF_ELSE => [[oneW t!"else", optT .IDENT, instrs], [lp, oneW t!"else", instrs, rp]]
  -- parts of fields
  | .MEM_USE => [[lp, oneW t!"memory", oneN .INDEX, rp]]
  | .TABLE_USE => [[lp, oneW t!"table", oneN .INDEX, rp]]
  | .DATA => [[lp, oneW t!"data", .many [.tok .STRING], rp]]
  | .OFFSET => [[lp, oneW t!"offset", instrs, rp], [.one instrTerms]]
  | .ELEM => [[lp, oneW t!"elem", manyN .ELEM_EXPR, rp], [lp, oneW t!"elem", manyN .INDEX, rp]]
  | .ELEM_EXPR => [[lp, oneW t!"item", instrs, rp], [.one instrTerms]]
  | .ELEM_LIST =>
    [[oneW t!"func", manyN .INDEX], [oneN .INDEX, manyN .INDEX], [oneT .REF_TYPE, manyN .ELEM_EXPR]]
  -- fields
  | .MODULE_FIELD_DATA =>
    [[lp, oneW t!"data", optT .IDENT, optN .MEM_USE, optN .OFFSET, .many [.tok .STRING], rp]]
  | .MODULE_FIELD_ELEM =>
    [[lp, oneW t!"elem", optT .IDENT, oneW t!"declare", oneN .ELEM_LIST, rp],
      [lp, oneW t!"elem", optT .IDENT, oneN .ELEM_LIST, rp],
      [lp, oneW t!"elem", optT .IDENT, optN .TABLE_USE, oneN .OFFSET, optN .ELEM_LIST, rp]]
  | .MODULE_FIELD_EXPORT => [[lp, oneW t!"export", oneN .NAME, .one exportTerms, rp]]
  | .MODULE_FIELD_FUNC =>
    [[lp, oneW t!"func", optT .IDENT, .many [.node .IMPORT, .node .EXPORT], optN .TYPE_USE, manyN .LOCAL, instrs, rp]]
  | .MODULE_FIELD_GLOBAL =>
    [[lp, oneW t!"global", optT .IDENT, optN .IMPORT, optN .EXPORT, oneN .GLOBAL_TYPE, instrs, rp]]
  | .MODULE_FIELD_IMPORT => [[lp, oneW t!"import", oneN .MODULE_NAME, oneN .NAME, .one importTerms, rp]]
  | .MODULE_FIELD_MEMORY =>
    [[lp, oneW t!"memory", optT .IDENT, optN .IMPORT, optN .EXPORT, .one [.node .DATA, .node .MEMORY_TYPE], rp]]
  | .MODULE_FIELD_START => [[lp, oneW t!"start", oneN .INDEX, rp]]
  | .MODULE_FIELD_TABLE =>
    [[lp, oneW t!"table", optT .IDENT, optN .IMPORT, optN .EXPORT, oneT .REF_TYPE, oneN .ELEM, rp],
      [lp, oneW t!"table", optT .IDENT, optN .IMPORT, optN .EXPORT, oneN .TABLE_TYPE, rp]]
  | .MODULE_FIELD_TYPE => [[lp, oneW t!"type", optT .IDENT, oneN .FUNC_TYPE, rp]]
  | _ => []

/-- White space or a comment. -/
def isBlank (g : Green) : Bool :=
  match g with
  | .tok .WHITESPACE _ | .tok .LINE_COMMENT _ | .tok .BLOCK_COMMENT _ => true
  | _ => false

/-- The elements that are not white space or comments. -/
def signif (l : List Green) : List Green := l.filter fun g => !isBlank g

/-- The text begins a new line. -/
def NewLine (t : Text) : Prop := ['\n'] <+: t ∨ ['\r', '\n'] <+: t

/-- Every line comment is followed by white space that begins a new line. -/
def LinesEnd : List Green → Prop
  | [] => True
  | .tok .LINE_COMMENT _ :: l => (∃ t r, l = .tok .WHITESPACE t :: r ∧ NewLine t) ∧ LinesEnd l
  | _ :: l => LinesEnd l

/-- The last element, if there is one, is neither white space nor a comment. -/
def EndsSolid (cs : List Green) : Prop := ∀ a g, cs = a ++ [g] → isBlank g = false

/-- The first element, if there is one, is neither white space nor a comment. -/
def StartsSolid (cs : List Green) : Prop := ∀ g r, cs = g :: r → isBlank g = false

/-- The elements of a node of the kind begin with neither white space nor a comment; except that those of the `then` part of an
`if` and of a type use may when they have no parenthesis of their own. -/
def BeginsSolid (k : Kind) (cs : List Green) : Prop :=
  StartsSolid cs ∨ (k = .TYPE_USE ∨ k = .BLOCK_IF_THEN) ∧ ∀ t, Green.tok .L_PAREN t ∉ cs

mutual
/-- Every node of the tree is an instance of a production of its kind, and neither begins nor ends with white space or a
comment. -/
def Derived : Green → Prop
  | .tok _ _ => True
  | .node k cs => (∃ p ∈ productions k, Match p (signif cs)) ∧ (LinesEnd cs ∧ EndsSolid cs ∧ BeginsSolid k cs) ∧ DerivedL cs
/-- For all elements of the list. -/
def DerivedL : List Green → Prop
  | [] => True
  | g :: gs => Derived g ∧ DerivedL gs
end

end Verif.Spec
