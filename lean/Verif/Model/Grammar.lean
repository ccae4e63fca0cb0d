import Verif.Model.Token
/-!
The grammar: `/repo/crates/parser/src/parser/ty.rs`, `instr.rs`, `module.rs` and `mod.rs` (`root`,
`Parser::parse_to_green`).  All recursion goes through `instr`; the functions that reach it take the
recursive parser as an argument (`ins`) and `instrF` ties the knot with a depth bound.
-/
namespace Verif
open P

/-- `peek(preceded(('(', trivias), word))`, the look-ahead of several `dispatch!`es
(module.rs:46, 486, 604; instr.rs:379). -/
def peekParenWord (dbg : Bool) : P Text :=
  peek (bind (lit ['(']) fun _ => bind (trivias dbg) fun _ => word)

/-! ### ty.rs -/

/-- ty.rs:13-22 (`ref_type`). -/
def refType : G :=
  context (.expDesc "ref type") (verifyMap (fun w =>
    if w == t!"funcref" || w == t!"externref" then some [.tok .REF_TYPE w] else none) word)

/-- ty.rs:25-30: the token a value type word becomes. -/
def valTypeTok (w : Text) : Option Green :=
  if w == t!"i32" || w == t!"i64" || w == t!"f32" || w == t!"f64" then
    some (.tok .NUM_TYPE w)
  else if w == t!"v128" then some (.tok .VEC_TYPE w)
  else if w == t!"funcref" || w == t!"externref" then some (.tok .REF_TYPE w)
  else none

/-- ty.rs:24-36 (`val_type`). -/
def valType : G :=
  map (fun t => [.node .VAL_TYPE [t]])
    (context (.expDesc "value type") (verifyMap valTypeTok word))

/-- ty.rs:38-41 (`heap_type`). -/
def heapType : G :=
  verifyMap (fun w =>
    if w == t!"func" || w == t!"extern" then some [.tok .HEAP_TYPE w] else none) word

/-- ty.rs:69-96 (`param`). -/
def param (dbg : Bool) : G :=
  nodeP .PARAM (seq [lParen, tp dbg (keyword t!"param"),
    alt [seq [tp dbg ident, must (retryOnce dbg valType [])], many dbg (retryOnce dbg valType [])],
    rParen dbg])

/-- ty.rs:98-118 (`result`). -/
def result (dbg : Bool) : G :=
  nodeP .RESULT (seq [lParen, tp dbg (keyword t!"result"), many dbg (retryOnce dbg valType []),
    rParen dbg])

/-- ty.rs:43-67 (`func_type`). -/
def funcType (dbg : Bool) : G :=
  nodeP .FUNC_TYPE (seq [lParen, tp dbg (keyword t!"func"),
    many dbg (retryOnce dbg (param dbg) [t!"result"]), many dbg (retryOnce dbg (result dbg) []),
    rParen dbg])

/-- ty.rs:191-195 (`share`). -/
def share : G :=
  tokP .SHARE (verify (fun w => w == t!"shared" || w == t!"unshared") word)

/-- ty.rs:171-189 (`limits`). -/
def limits (dbg : Bool) : G :=
  nodeP .LIMITS (seq [unsignedInt, optG (tp dbg unsignedInt), optG (tp dbg share)])

/-- ty.rs:120-135 (`table_type`). The `context` wraps the tuple, before the node is built. -/
def tableType (dbg : Bool) : G :=
  nodeP .TABLE_TYPE (context (.expDesc "table type")
    (seq [limits dbg, must (retryOnce dbg refType [])]))

/-- ty.rs:137-144 (`memory_type`). -/
def memoryType (dbg : Bool) : G :=
  nodeP .MEMORY_TYPE (context (.expDesc "memory type") (limits dbg))

/-- ty.rs:146-169 (`global_type`). -/
def globalType (dbg : Bool) : G :=
  alt [nodeP .GLOBAL_TYPE valType,
    nodeP .GLOBAL_TYPE (seq [lParen, tp dbg (keyword t!"mut"), must (tp dbg valType), rParen dbg])]

/-! ### module.rs, parts without instructions -/

/-- module.rs:780-787 (`index`). -/
def index : G :=
  nodeP .INDEX (context (.expDesc "index (identifier or unsigned integer)")
    (alt [ident, unsignedInt]))

/-- module.rs:651-697 (`type_use`). -/
def typeUse (dbg : Bool) : G :=
  alt [
    nodeP .TYPE_USE (seq [lParen, tp dbg (keyword t!"type"), must (retryOnce dbg index []), rParen dbg,
      many dbg (tp dbg (param dbg)), many dbg (tp dbg (result dbg))]),
    nodeP .TYPE_USE (seq [many1 dbg (tp dbg (param dbg)), many dbg (tp dbg (result dbg))]),
    nodeP .TYPE_USE (many1 dbg (tp dbg (result dbg)))]

/-- module.rs:410-435 (`local`). -/
def localP (dbg : Bool) : G :=
  nodeP .LOCAL (seq [lParen, tp dbg (keyword t!"local"),
    alt [seq [tp dbg ident, retry dbg valType []], many dbg (retryOnce dbg valType [])],
    rParen dbg])

/-- module.rs:641-645 (`module_name`). -/
def moduleName : G := nodeP .MODULE_NAME string

/-- module.rs:647-649 (`name`). -/
def nameP : G := nodeP .NAME string

/-- module.rs:437-461 (`import`). -/
def importP (dbg : Bool) : G :=
  nodeP .IMPORT (seq [lParen, tp dbg (keyword t!"import"), must (tp dbg moduleName),
    must (tp dbg nameP), rParen dbg])

/-- module.rs:463-483 (`export`). -/
def exportP (dbg : Bool) : G :=
  nodeP .EXPORT (seq [lParen, tp dbg (keyword t!"export"), must (tp dbg nameP), rParen dbg])

/-- module.rs:499-523 (`import_desc_global_type`). -/
def importDescGlobalType (dbg : Bool) : G :=
  nodeP .IMPORT_DESC_GLOBAL_TYPE (seq [lParen, tp dbg (keyword t!"global"), optG (tp dbg ident),
    must (retryOnce dbg (globalType dbg) []), rParen dbg])

/-- module.rs:525-549 (`import_desc_memory_type`). -/
def importDescMemoryType (dbg : Bool) : G :=
  nodeP .IMPORT_DESC_MEMORY_TYPE (seq [lParen, tp dbg (keyword t!"memory"), optG (tp dbg ident),
    must (retry dbg (memoryType dbg) []), rParen dbg])

/-- module.rs:551-575 (`import_desc_table_type`). -/
def importDescTableType (dbg : Bool) : G :=
  nodeP .IMPORT_DESC_TABLE_TYPE (seq [lParen, tp dbg (keyword t!"table"), optG (tp dbg ident),
    must (retry dbg (tableType dbg) []), rParen dbg])

/-- module.rs:577-601 (`import_desc_type_use`). -/
def importDescTypeUse (dbg : Bool) : G :=
  nodeP .IMPORT_DESC_TYPE_USE (seq [lParen, tp dbg (keyword t!"func"), optG (tp dbg ident),
    optG (retryOnce dbg (typeUse dbg) []), rParen dbg])

/-- module.rs:485-497 (`import_desc`). -/
def importDesc (dbg : Bool) : G :=
  context (.expDesc "import descriptor") (bind (peekParenWord dbg) fun w =>
    if w == t!"func" then importDescTypeUse dbg
    else if w == t!"global" then importDescGlobalType dbg
    else if w == t!"memory" then importDescMemoryType dbg
    else if w == t!"table" then importDescTableType dbg
    else fail)

/-- module.rs:617-639 (`export_desc_variant`). -/
def exportDescVariant (dbg : Bool) (kw : Text) (k : Kind) : G :=
  nodeP k (seq [lParen, tp dbg (keyword kw), must (retryOnce dbg index []), rParen dbg])

/-- module.rs:603-615 (`export_desc`). -/
def exportDesc (dbg : Bool) : G :=
  context (.expDesc "export desc") (bind (peekParenWord dbg) fun w =>
    if w == t!"func" then exportDescVariant dbg t!"func" .EXPORT_DESC_FUNC
    else if w == t!"table" then exportDescVariant dbg t!"table" .EXPORT_DESC_TABLE
    else if w == t!"memory" then exportDescVariant dbg t!"memory" .EXPORT_DESC_MEMORY
    else if w == t!"global" then exportDescVariant dbg t!"global" .EXPORT_DESC_GLOBAL
    else fail)

/-- module.rs:789-809 (`mem_use`). -/
def memUse (dbg : Bool) : G :=
  nodeP .MEM_USE (seq [lParen, tp dbg (keyword t!"memory"), must (tp dbg index), rParen dbg])

/-- module.rs:811-831 (`table_use`). -/
def tableUse (dbg : Bool) : G :=
  nodeP .TABLE_USE (seq [lParen, tp dbg (keyword t!"table"), must (tp dbg index), rParen dbg])

/-- module.rs:859-879 (`data`). -/
def dataP (dbg : Bool) : G :=
  nodeP .DATA (seq [lParen, tp dbg (keyword t!"data"), many dbg (retryOnce dbg string []), rParen dbg])

/-! ### instr.rs -/

/-- instr.rs:367-371 (`instr_name`). -/
def instrName : G := tokP .INSTR_NAME (context (.label "instruction name") word)

/-- instr.rs:394-399 (`mem_arg`). -/
def memArg : G :=
  tokP .MEM_ARG (take (bind (alt [lit t!"offset", lit t!"align"]) fun _ =>
    bind (lit ['=']) fun _ => unsignedIntImpl))

/-- instr.rs:373-392 (`operand`). -/
def operand (dbg : Bool) (ins : G) (allowInstr : Bool) : G :=
  context (.expDesc "operand") (nodeP .OPERAND (bind (peek any) fun c =>
    if isDigit c || c == '+' || c == '-' then alt [int, float]
    else if c == '.' || c == 'i' || c == 'n' then float
    else if c == '"' then string
    else if c == '$' then ident
    else if c == '(' then
      bind (peekParenWord dbg) fun w =>
        if w == t!"type" then typeUse dbg
        else if allowInstr then ins
        else fail
    else if c == 'o' || c == 'a' then memArg
    else if c == 'f' || c == 'e' then heapType
    else fail))

/-- instr.rs:331-365 (`plain_instr`). -/
def plainInstr (dbg : Bool) (ins : G) : G :=
  alt [
    nodeP .PLAIN_INSTR (seq [lParen, tp dbg instrName,
      many dbg (retryOnce dbg (operand dbg ins true) []), rParen dbg]),
    nodeP .PLAIN_INSTR (seq [instrName, many dbg (tp dbg (operand dbg ins false))])]

/-- instr.rs:34-40 (`block_type`). -/
def blockType (dbg : Bool) : G :=
  alt [nodeP .BLOCK_TYPE (result dbg), nodeP .BLOCK_TYPE (typeUse dbg)]

/-- `peek((trivias, alt((word.verify(|word| ..), ")"))))`, the terminators of instr.rs:51, 121, 191-194,
203. -/
def peekEnd (dbg : Bool) (ends : List Text) : P Unit :=
  peek (void (bind (trivias dbg) fun _ =>
    alt [verify (fun w => ends.any fun e => w == e) word, lit [')']]))

/-- `repeat_till(0.., retry_once(instr, []), peek(..))` with the results appended. -/
def instrsTill (dbg : Bool) (ins : G) (ends : List Text) : G :=
  map (fun r => r.1.flatten) (repeatTill dbg (retryOnce dbg ins []) (peekEnd dbg ends))

/-- instr.rs:42-110 (`block_block`) and 112-180 (`block_loop`), which differ in keyword and kind only. -/
def blockLike (dbg : Bool) (ins : G) (kw : Text) (k : Kind) : G :=
  alt [
    nodeP k (seq [keyword kw, optG (tp dbg ident), optG (tp dbg (blockType dbg)),
      instrsTill dbg ins [t!"end"], must (tp dbg (keyword t!"end")), optG (tp dbg ident)]),
    nodeP k (seq [lParen, tp dbg (keyword kw), optG (tp dbg ident), optG (tp dbg (blockType dbg)),
      many dbg (retry dbg ins []), rParen dbg, optG (tp dbg ident)])]

/-- instr.rs:252-256: conditions up to the `(then`: yields the conditions followed by the trivia before the
`then` term, and separately the `(` and `then` that open the `BLOCK_IF_THEN` node. -/
def ifCondsThen (dbg : Bool) (ins : G) : P (List Green × List Green) :=
  map (fun r => (r.1.flatten ++ r.2.1, r.2.2))
    (repeatTill dbg (retry dbg ins [])
      (bind (trivias dbg) fun tr => map (fun lk => (tr, lk)) (seq [lParen, tp dbg (keyword t!"then")])))

/-- instr.rs:182-329 (`block_if`). -/
def blockIf (dbg : Bool) (ins : G) : G :=
  alt [
    nodeP .BLOCK_IF (seq [keyword t!"if", optG (tp dbg ident), optG (tp dbg (blockType dbg)),
      nodeP .BLOCK_IF_THEN (instrsTill dbg ins [t!"end", t!"else"]),
      optG (seq [trivias dbg, nodeP .BLOCK_IF_ELSE (seq [keyword t!"else", optG (tp dbg ident),
        instrsTill dbg ins [t!"end"]])]),
      must (tp dbg (keyword t!"end")), optG (tp dbg ident)]),
    nodeP .BLOCK_IF (seq [lParen, tp dbg (keyword t!"if"), optG (tp dbg ident),
      optG (tp dbg (blockType dbg)),
      bind (ifCondsThen dbg ins) fun cl =>
        seq [map (fun rest => cl.1 ++ [.node .BLOCK_IF_THEN (cl.2 ++ rest)])
              (seq [many dbg (retry dbg ins []), rParen dbg]),
          optG (seq [trivias dbg, nodeP .BLOCK_IF_ELSE (seq [lParen, tp dbg (keyword t!"else"),
            many dbg (retry dbg ins []), rParen dbg])]),
          rParen dbg]])]

/-- instr.rs:24-32 (`block_instr`). -/
def blockInstr (dbg : Bool) (ins : G) : G :=
  bind (peek (bind (opt (bind (lit ['(']) fun _ => trivias dbg)) fun _ => word)) fun w =>
    if w == t!"if" then blockIf dbg ins
    else if w == t!"loop" then blockLike dbg ins t!"loop" .BLOCK_LOOP
    else if w == t!"block" then blockLike dbg ins t!"block" .BLOCK_BLOCK
    else fail

/-- instr.rs:20-22 (`instr`); `fuel` bounds the nesting depth. -/
def instrF (dbg : Bool) : Nat → G
  | 0 => fun _ => .oof
  | fuel + 1 => alt [blockInstr dbg (instrF dbg fuel), plainInstr dbg (instrF dbg fuel)]

/-- instr.rs:20-22 (`instr`). Each nested instruction consumes at least one character of its parent, so
`rest.length + 1` levels suffice. -/
def instr (dbg : Bool) : G := fun s => instrF dbg (s.rest.length + 1) s

/-! ### module.rs, parts with instructions -/

/-- module.rs:755-778 (`elem_expr`). -/
def elemExpr (dbg : Bool) : G :=
  alt [
    nodeP .ELEM_EXPR (seq [lParen, tp dbg (keyword t!"item"), many dbg (retry dbg (instr dbg) []),
      rParen dbg]),
    nodeP .ELEM_EXPR (bind (peek (lit ['('])) fun _ => instr dbg)]

/-- module.rs:725-753 (`elem_list`). -/
def elemList (dbg : Bool) : G :=
  alt [
    nodeP .ELEM_LIST (seq [alt [keyword t!"func", index], many dbg (retryOnce dbg index [])]),
    nodeP .ELEM_LIST (seq [refType, many dbg (retryOnce dbg (elemExpr dbg) [])])]

/-- module.rs:699-723 (`elem`). -/
def elem (dbg : Bool) : G :=
  nodeP .ELEM (seq [lParen, tp dbg (keyword t!"elem"),
    bind (peek (bind (trivias dbg) fun _ => any)) fun c =>
      if c == '(' then many dbg (retryOnce dbg (elemExpr dbg) [])
      else if c == ')' then pure []
      else many dbg (retryOnce dbg index []),
    rParen dbg])

/-- module.rs:833-857 (`offset`). -/
def offset (dbg : Bool) : G :=
  context (.expDesc "offset") (alt [
    nodeP .OFFSET (seq [lParen, tp dbg (keyword t!"offset"), many dbg (retry dbg (instr dbg) []),
      rParen dbg]),
    nodeP .OFFSET (bind (peek (lit ['('])) fun _ => instr dbg)])

/-- module.rs:65-99 (`module_field_data`). -/
def moduleFieldData (dbg : Bool) : G :=
  nodeP .MODULE_FIELD_DATA (seq [lParen, tp dbg (keyword t!"data"), optG (tp dbg ident),
    optG (tp dbg (memUse dbg)), optG (tp dbg (offset dbg)), many dbg (retryOnce dbg string []),
    rParen dbg])

/-- module.rs:101-143 (`module_field_elem`). -/
def moduleFieldElem (dbg : Bool) : G :=
  nodeP .MODULE_FIELD_ELEM (seq [lParen, tp dbg (keyword t!"elem"), optG (tp dbg ident),
    alt [seq [tp dbg (keyword t!"declare"), must (retryOnce dbg (elemList dbg) [])],
      tp dbg (elemList dbg),
      seq [optG (tp dbg (tableUse dbg)), must (retryOnce dbg (offset dbg) []),
        optG (retryOnce dbg (elemList dbg) [])]],
    rParen dbg])

/-- module.rs:145-169 (`module_field_export`). -/
def moduleFieldExport (dbg : Bool) : G :=
  nodeP .MODULE_FIELD_EXPORT (seq [lParen, tp dbg (keyword t!"export"), must (tp dbg nameP),
    must (retryOnce dbg (exportDesc dbg) []), rParen dbg])

/-- module.rs:171-209 (`module_field_func`). -/
def moduleFieldFunc (dbg : Bool) : G :=
  nodeP .MODULE_FIELD_FUNC (seq [lParen, tp dbg (keyword t!"func"), optG (tp dbg ident),
    many dbg (tp dbg (alt [importP dbg, exportP dbg])), optG (tp dbg (typeUse dbg)),
    many dbg (tp dbg (localP dbg)), many dbg (retryOnce dbg (instr dbg) []), rParen dbg])

/-- module.rs:211-249 (`module_field_global`). -/
def moduleFieldGlobal (dbg : Bool) : G :=
  nodeP .MODULE_FIELD_GLOBAL (seq [lParen, tp dbg (keyword t!"global"), optG (tp dbg ident),
    optG (tp dbg (importP dbg)), optG (tp dbg (exportP dbg)),
    must (retryOnce dbg (globalType dbg) []), many dbg (retryOnce dbg (instr dbg) []), rParen dbg])

/-- module.rs:251-279 (`module_field_import`). -/
def moduleFieldImport (dbg : Bool) : G :=
  nodeP .MODULE_FIELD_IMPORT (seq [lParen, tp dbg (keyword t!"import"), must (retry dbg moduleName []),
    must (retry dbg nameP []), must (retryOnce dbg (importDesc dbg) []), rParen dbg])

/-- module.rs:281-318 (`module_field_memory`). -/
def moduleFieldMemory (dbg : Bool) : G :=
  nodeP .MODULE_FIELD_MEMORY (seq [lParen, tp dbg (keyword t!"memory"), optG (tp dbg ident),
    optG (tp dbg (importP dbg)), optG (tp dbg (exportP dbg)),
    bind (peek (bind (trivias dbg) fun _ => any)) fun c =>
      if c == '(' then must (retryOnce dbg (dataP dbg) [])
      else must (retryOnce dbg (memoryType dbg) []),
    rParen dbg])

/-- module.rs:320-340 (`module_field_start`). -/
def moduleFieldStart (dbg : Bool) : G :=
  nodeP .MODULE_FIELD_START (seq [lParen, tp dbg (keyword t!"start"), must (retryOnce dbg index []),
    rParen dbg])

/-- module.rs:342-382 (`module_field_table`). -/
def moduleFieldTable (dbg : Bool) : G :=
  nodeP .MODULE_FIELD_TABLE (seq [lParen, tp dbg (keyword t!"table"), optG (tp dbg ident),
    optG (tp dbg (importP dbg)), optG (tp dbg (exportP dbg)),
    must (alt [seq [tp dbg refType, must (retryOnce dbg (elem dbg) [])],
      retry dbg (tableType dbg) []]),
    rParen dbg])

/-- module.rs:384-408 (`module_field_type`). -/
def moduleFieldType (dbg : Bool) : G :=
  nodeP .MODULE_FIELD_TYPE (seq [lParen, tp dbg (keyword t!"type"), optG (tp dbg ident),
    must (retryOnce dbg (funcType dbg) []), rParen dbg])

/-- module.rs:45-63 (`module_field`). -/
def moduleField (dbg : Bool) : G :=
  context (.expDesc "module field") (bind (peekParenWord dbg) fun w =>
    if w == t!"func" then moduleFieldFunc dbg
    else if w == t!"type" then moduleFieldType dbg
    else if w == t!"export" then moduleFieldExport dbg
    else if w == t!"import" then moduleFieldImport dbg
    else if w == t!"start" then moduleFieldStart dbg
    else if w == t!"data" then moduleFieldData dbg
    else if w == t!"table" then moduleFieldTable dbg
    else if w == t!"memory" then moduleFieldMemory dbg
    else if w == t!"global" then moduleFieldGlobal dbg
    else if w == t!"elem" then moduleFieldElem dbg
    else fail)

/-- module.rs:19-43 (`module`). -/
def moduleP (dbg : Bool) : G :=
  nodeP .MODULE (seq [lParen, tp dbg (keyword t!"module"), optG (tp dbg ident),
    many dbg (retryOnce dbg (moduleField dbg) []), rParen dbg])

/-- mod.rs:71-88 (`root`), the children of the root node. -/
def rootChildren (dbg : Bool) : G :=
  seq [many dbg (retryOnce dbg (moduleP dbg) []),
    many dbg (alt [ws, lineComment, blockComment dbg, errorToken true])]

/-- The result of `Parser::parse_to_green` (`/repo/crates/parser/src/parser/mod.rs:42-46`): a tree and the
errors, or a panic. `oof` is the model's fuel exhaustion. -/
inductive ParseOut where
  | tree (t : Green) (errs : List Err) (dropped : Text)
  | panic
  | oof
  deriving Repr

/-- `Parser::new(source)` (mod.rs:30-35): the initial input. -/
def St.init (src : Text) : St := { rest := src, pos := 0, errs := [] }

/-- mod.rs:42-46 (`parse_to_green`): `recoverable_parse` runs `(root, eof.resume_after(rest))`: text left over
by `root` is skipped with one recorded error (`dropped`, not part of the tree); a failure of `root` would
make the `expect` panic. -/
def parse (dbg : Bool) (src : Text) : ParseOut :=
  match rootChildren dbg (St.init src) with
  | .ok cs s =>
    if s.rest.isEmpty then .tree (.node .ROOT cs) s.errs []
    else
      let s' : St := { s with rest := [], pos := s.pos + bytes s.rest }
      .tree (.node .ROOT cs) (s'.record .new).errs s.rest
  | .fail _ _ => .panic
  | .panic => .panic
  | .oof => .oof

end Verif
