import Verif.Model.Types
import Verif.Model.Check
import Verif.Model.Outline
/-!
Completion: `/repo/crates/service/src/features/completion.rs`, and the lists it offers,
`/repo/crates/service/src/data_set/mod.rs`.  As in `Model/Nav.lean`, text and tree of the document are arguments.
-/
namespace Verif

/-- data_set/mod.rs:5-6 (`VALUE_TYPES`). -/
def valueTypes : List Text := [t!"i32", t!"i64", t!"f32", t!"f64", t!"v128", t!"funcref", t!"externref"]

/-- data_set/mod.rs:8-261 (`INSTR_NAMES`), names 0 to 62. -/
def instrNames0 : List Text :=
  [t!"unreachable", t!"nop", t!"block", t!"loop", t!"if", t!"else", t!"end", t!"br", t!"br_if", t!"br_table",
   t!"return", t!"call", t!"call_indirect", t!"drop", t!"select", t!"local.get", t!"local.set", t!"local.tee",
   t!"global.get", t!"global.set", t!"i32.load", t!"i64.load", t!"f32.load", t!"f64.load", t!"i32.load8_s",
   t!"i32.load8_u", t!"i32.load16_s", t!"i32.load16_u", t!"i64.load8_s", t!"i64.load8_u", t!"i64.load16_s",
   t!"i64.load16_u", t!"i64.load32_s", t!"i64.load32_u", t!"i32.store", t!"i64.store", t!"f32.store", t!"f64.store",
   t!"i32.store8", t!"i32.store16", t!"i64.store8", t!"i64.store16", t!"i64.store32", t!"memory.size",
   t!"memory.grow", t!"i32.const", t!"i64.const", t!"f32.const", t!"f64.const", t!"i32.eqz", t!"i32.eq", t!"i32.ne",
   t!"i32.lt_s", t!"i32.lt_u", t!"i32.gt_s", t!"i32.gt_u", t!"i32.le_s", t!"i32.le_u", t!"i32.ge_s", t!"i32.ge_u",
   t!"i64.eqz", t!"i64.eq", t!"i64.ne"]

/-- data_set/mod.rs:8-261 (`INSTR_NAMES`), names 63 to 125. -/
def instrNames1 : List Text :=
  [t!"i64.lt_s", t!"i64.lt_u", t!"i64.gt_s", t!"i64.gt_u", t!"i64.le_s", t!"i64.le_u", t!"i64.ge_s", t!"i64.ge_u",
   t!"f32.eq", t!"f32.ne", t!"f32.lt", t!"f32.gt", t!"f32.le", t!"f32.ge", t!"f64.eq", t!"f64.ne", t!"f64.lt",
   t!"f64.gt", t!"f64.le", t!"f64.ge", t!"i32.clz", t!"i32.ctz", t!"i32.popcnt", t!"i32.add", t!"i32.sub",
   t!"i32.mul", t!"i32.div_s", t!"i32.div_u", t!"i32.rem_s", t!"i32.rem_u", t!"i32.and", t!"i32.or", t!"i32.xor",
   t!"i32.shl", t!"i32.shr_s", t!"i32.shr_u", t!"i32.rotl", t!"i32.rotr", t!"i64.clz", t!"i64.ctz", t!"i64.popcnt",
   t!"i64.add", t!"i64.sub", t!"i64.mul", t!"i64.div_s", t!"i64.div_u", t!"i64.rem_s", t!"i64.rem_u", t!"i64.and",
   t!"i64.or", t!"i64.xor", t!"i64.shl", t!"i64.shr_s", t!"i64.shr_u", t!"i64.rotl", t!"i64.rotr", t!"f32.abs",
   t!"f32.neg", t!"f32.ceil", t!"f32.floor", t!"f32.trunc", t!"f32.nearest", t!"f32.sqrt"]

/-- data_set/mod.rs:8-261 (`INSTR_NAMES`), names 126 to 188. -/
def instrNames2 : List Text :=
  [t!"f32.add", t!"f32.sub", t!"f32.mul", t!"f32.div", t!"f32.min", t!"f32.max", t!"f32.copysign", t!"f64.abs",
   t!"f64.neg", t!"f64.ceil", t!"f64.floor", t!"f64.trunc", t!"f64.nearest", t!"f64.sqrt", t!"f64.add", t!"f64.sub",
   t!"f64.mul", t!"f64.div", t!"f64.min", t!"f64.max", t!"f64.copysign", t!"i32.wrap_i64", t!"i32.trunc_f32_s",
   t!"i32.trunc_f32_u", t!"i32.trunc_f64_s", t!"i32.trunc_f64_u", t!"i64.extend_i32_s", t!"i64.extend_i32_u",
   t!"i64.trunc_f32_s", t!"i64.trunc_f32_u", t!"i64.trunc_f64_s", t!"i64.trunc_f64_u", t!"f32.convert_i32_s",
   t!"f32.convert_i32_u", t!"f32.convert_i64_s", t!"f32.convert_i64_u", t!"f32.demote_f64", t!"f64.convert_i32_s",
   t!"f64.convert_i32_u", t!"f64.convert_i64_s", t!"f64.convert_i64_u", t!"f64.promote_f32", t!"i32.reinterpret_f32",
   t!"i64.reinterpret_f64", t!"f32.reinterpret_i32", t!"f64.reinterpret_i64", t!"v128.load", t!"v128.store",
   t!"v128.const", t!"i8x16.splat", t!"i8x16.extract_lane_s", t!"i8x16.extract_lane_u", t!"i8x16.replace_lane",
   t!"i16x8.splat", t!"i16x8.extract_lane_s", t!"i16x8.extract_lane_u", t!"i16x8.replace_lane", t!"i32x4.splat",
   t!"i32x4.extract_lane", t!"i32x4.replace_lane", t!"i64x2.splat", t!"i64x2.extract_lane", t!"i64x2.replace_lane"]

/-- data_set/mod.rs:8-261 (`INSTR_NAMES`), names 189 to 251. -/
def instrNames3 : List Text :=
  [t!"f32x4.splat", t!"f32x4.extract_lane", t!"f32x4.replace_lane", t!"f64x2.splat", t!"f64x2.extract_lane",
   t!"f64x2.replace_lane", t!"i8x16.swizzle", t!"i8x16.shuffle", t!"i8x16.add", t!"i8x16.add_sat_s",
   t!"i8x16.add_sat_u", t!"i8x16.sub", t!"i8x16.sub_sat_s", t!"i8x16.sub_sat_u", t!"i8x16.mul", t!"i8x16.min_s",
   t!"i8x16.min_u", t!"i8x16.max_s", t!"i8x16.max_u", t!"i8x16.avgr_u", t!"i16x8.add", t!"i16x8.add_sat_s",
   t!"i16x8.add_sat_u", t!"i16x8.sub", t!"i16x8.sub_sat_s", t!"i16x8.sub_sat_u", t!"i16x8.mul", t!"i16x8.min_s",
   t!"i16x8.min_u", t!"i16x8.max_s", t!"i16x8.max_u", t!"i16x8.avgr_u", t!"i32x4.add", t!"i32x4.sub", t!"i32x4.mul",
   t!"i32x4.min_s", t!"i32x4.min_u", t!"i32x4.max_s", t!"i32x4.max_u", t!"i32x4.dot_i16x8_s", t!"i64x2.add",
   t!"i64x2.sub", t!"i64x2.mul", t!"f32x4.add", t!"f32x4.sub", t!"f32x4.mul", t!"f32x4.div", t!"f32x4.min",
   t!"f32x4.max", t!"f32x4.pmin", t!"f32x4.pmax", t!"f64x2.add", t!"f64x2.sub", t!"f64x2.mul", t!"f64x2.div",
   t!"f64x2.min", t!"f64x2.max", t!"f64x2.pmin", t!"f64x2.pmax", t!"i32x4.trunc_sat_f32x4_s",
   t!"i32x4.trunc_sat_f32x4_u", t!"f32x4.convert_i32x4_s", t!"f32x4.convert_i32x4_u"]

/-- data_set/mod.rs:8-261 (`INSTR_NAMES`). -/
def instrNames : List Text := instrNames0 ++ instrNames1 ++ instrNames2 ++ instrNames3

/-- data_set/mod.rs:263-265 (`MODULE_FIELDS`). -/
def moduleFields : List Text :=
  [t!"func", t!"type", t!"import", t!"table", t!"memory", t!"global", t!"export", t!"start", t!"elem", t!"data"]

/-- data_set/mod.rs:280 (`PORT_DESC`). -/
def portDesc : List Text := [t!"func", t!"table", t!"memory", t!"global"]

/-- data_set/mod.rs:267-278 (`get_value_type_description`). -/
def valueTypeDescription (t : Text) : Option Text :=
  if t = t!"i32" then
    some t!"The type `i32` classifies 32 bit integers."
  else if t = t!"i64" then
    some t!"The type `i64` classifies 64 bit integers."
  else if t = t!"f32" then
    some t!"The type `f32` classifies 32 bit floating-point data."
  else if t = t!"f64" then
    some t!"The type `f64` classifies 64 bit floating-point data."
  else if t = t!"v128" then
    some t!"The type `v128` corresponds to a 128 bit vector of packed integer or floating-point data."
  else if t = t!"funcref" then
    some t!"The type [`funcref`](https://webassembly.github.io/spec/core/syntax/types.html#syntax-reftype) denotes the infinite union of all references to [functions](https://webassembly.github.io/spec/core/syntax/modules.html#syntax-func), regardless of their [function types](https://webassembly.github.io/spec/core/syntax/types.html#syntax-functype)."
  else if t = t!"externref" then
    some t!"The type [`externref`](https://webassembly.github.io/spec/core/syntax/types.html#syntax-reftype) denotes the infinite union of all references to objects owned by the [embedder](https://webassembly.github.io/spec/core/intro/overview.html#embedder) and that can be passed into WebAssembly under this type."
  else none

/-- completion.rs:341-369 (`CmpCtx`); the keyword contexts that offer one keyword are merged into `keyword`. -/
inductive CmpCtx where
  | instr | valType | refType | local | func | funcType | global | memArg | memory | table | block
  | moduleField | imExport | paramResult | portDesc
  | keyword (t : Text)
  deriving DecidableEq, Repr

/-- `lsp_types::CompletionItemKind`, those the code uses. -/
inductive CmpKind where
  | operator | class | variable | function | interface | snippet | keyword
  deriving DecidableEq, Repr

/-- `lsp_types::CompletionItem`, the fields the code sets: `detail` is `label_details.description`, `doc` the value of
`documentation`, which is always Markdown. -/
structure CmpItem where
  label : Text
  kind : CmpKind
  insertText : Option Text := none
  detail : Option Text := none
  doc : Option Text := none
  deriving DecidableEq, Repr

/-- completion.rs:30-41 (`find_token`): the token at the cursor; between two tokens, the one before it. -/
def cmpToken (src : Text) (root : Red) (p : Pos) : Ans (Option Tok) :=
  match lspPosToRowan src p with
  | none => .done none
  | some off =>
    (root.tokenAtOffset off).bind fun
      | .none => .done none
      | .single t => .done (some t)
      | .between l _ => .done (some l)

/-- Whether an element is the token: it is a token at the same place. -/
def isTok (t : Tok) : El → Bool
  | .tok u => u.off == t.off
  | .node _ => false

/-- Whether an element is the node: it is a node with the same kind and range. -/
def isRed (n : Red) : El → Bool
  | .tok _ => false
  | .node m => m.key == n.key

/-- `token.siblings_with_tokens(Direction::Prev).skip(1)`: the siblings before the token, nearest first.  Tokens of parsed
documents are not empty (`Verif.C06_nonempty`), so that a token is known by its place. -/
def Tok.before (t : Tok) : List El :=
  match t.parent with
  | some p => (p.els.takeWhile fun e => !isTok t e).reverse
  | none => []

/-- `token.siblings_with_tokens(Direction::Next).skip(1)`: the siblings after the token. -/
def Tok.after (t : Tok) : List El :=
  match t.parent with
  | some p => (p.els.dropWhile fun e => !isTok t e).drop 1
  | none => []

/-- `node.siblings_with_tokens(Direction::Prev).skip(1)`: the siblings before the node, nearest first.  Simplification: the
node is known by its kind and range; all nodes this is used for contain a token. -/
def Red.before (n : Red) : List El :=
  match n.parent with
  | some p => (p.els.takeWhile fun e => !isRed n e).reverse
  | none => []

/-- `elements.find(|element| matches!(element, SyntaxElement::Node(..))).map(|element| element.kind())`. -/
def firstNode : List El → Option Kind
  | [] => none
  | .node n :: _ => some n.kind
  | .tok _ :: es => firstNode es

/-- `elements.find_map(SyntaxElement::into_token)`. -/
def firstTok : List El → Option Tok
  | [] => none
  | .tok t :: _ => some t
  | .node _ :: es => firstTok es

/-- completion.rs:747-750 (`is_l_paren`). -/
def isLParen (t : Tok) : Bool := t.kind == .L_PAREN || (t.kind == .ERROR && t.text == t!"(")

/-- completion.rs:738-742: white space and comments. -/
def isTriviaKind : Kind → Bool
  | .WHITESPACE | .LINE_COMMENT | .BLOCK_COMMENT => true
  | _ => false

/-- completion.rs:730-746 (`find_leading_l_paren`), whether there is one. -/
def hasLeadingLParen (t : Tok) : Bool :=
  isLParen t || (firstTok (t.before.dropWhile fun e => isTriviaKind e.kind)).any isLParen

/-- completion.rs:60-66 and its copies: the kinds of instructions. -/
def isInstrKind : Kind → Bool
  | .PLAIN_INSTR | .BLOCK_BLOCK | .BLOCK_IF | .BLOCK_LOOP => true
  | _ => false

/-- completion.rs:69-72, 119-122: the keywords at the head of a function. -/
def headCtx : List CmpCtx := [.imExport, .keyword t!"type", .paramResult, .keyword t!"local"]

/-- `str::split_once('.')`. -/
def splitDot : Text → Option (Text × Text)
  | [] => none
  | c :: cs => if c = '.' then some ([], cs) else (splitDot cs).map fun p => (c :: p.1, p.2)

/-- completion.rs:312-339 (`add_cmp_ctx_for_operands`). -/
def operandCtx (name : Text) (n : Red) : List CmpCtx :=
  match splitDot name with
  | some (fst, snd) =>
    if fst = t!"local" then [.local]
    else if fst = t!"global" then [.global]
    else if fst = t!"ref" ∧ snd = t!"func" then [.func]
    else if fst = t!"table" then
      if snd = t!"init" ∧ n.kind = .OPERAND ∧ firstNode n.before = some .OPERAND then [] else [.table]
    else if t!"load".isPrefixOf snd || t!"store".isPrefixOf snd then [.memArg]
    else []
  | none =>
    if name ∈ [t!"call", t!"return_call"] then [.func]
    else if name ∈ [t!"br", t!"br_if", t!"br_table"] then [.block]
    else []

/-- `node.children().any(|child| child.kind() == kind)`. -/
def Red.hasChild (n : Red) (k : Kind) : Bool := n.children.any fun c => c.kind == k

/-- completion.rs:91-151: the contexts of a token in an instruction. -/
def instrCtx (t : Tok) (p : Red) : List CmpCtx :=
  if t.kind == .INSTR_NAME then
    .instr :: match p.parent with
      | none => []
      | some g =>
        match g.kind with
        | .MODULE_FIELD_FUNC =>
          if !(firstNode p.before).any isInstrKind && hasLeadingLParen t then headCtx else []
        | .OFFSET =>
          if (g.token .KEYWORD).isNone then
            .keyword t!"offset" :: match g.parent.map Red.kind with
              | some .MODULE_FIELD_DATA => [.keyword t!"memory"]
              | some .MODULE_FIELD_ELEM =>
                if g.before.any fun | .node m => m.kind == .TABLE_USE | .tok _ => false then [] else [.keyword t!"table"]
              | _ => []
          else []
        | _ => []
  else
    match p.instrName with
    | none => []
    | some name => operandCtx name p

/-- completion.rs:170-182: the contexts of a token in an index. -/
def indexCtx (p : Red) : List CmpCtx :=
  match p.parent.map Red.kind with
  | some .MODULE_FIELD_START | some .EXPORT_DESC_FUNC => [.func]
  | some .TYPE_USE => [.funcType]
  | some .EXPORT_DESC_GLOBAL => [.global]
  | some .EXPORT_DESC_MEMORY => [.memory]
  | some .EXPORT_DESC_TABLE => [.table]
  | _ => []

/-- completion.rs:224-261: the contexts of a token in an element segment. -/
def elemCtx (t : Tok) (p : Red) : List CmpCtx :=
  if hasLeadingLParen t then
    (if p.hasChild .OFFSET then [.keyword t!"item"]
     else (if p.hasChild .TABLE_USE then [] else [.keyword t!"table"]) ++ [.keyword t!"offset"]) ++ [.instr]
  else if ((p.childOf .ELEM_LIST).bind fun l => l.token .KEYWORD).any fun k => k.text == t!"func" then [.func]
  else [.refType, .keyword t!"func"] ++
    (if p.childToks.any fun k => k.text == t!"declare" then [] else [.keyword t!"declare"])

/-- completion.rs:43-311 (`get_cmp_ctx`); no context is the code's `None`. -/
def cmpCtx (t : Tok) : List CmpCtx :=
  match t.parent with
  | none => []
  | some p =>
    match p.kind with
    | .MODULE_FIELD_FUNC =>
      (if !(firstNode t.before).any isInstrKind && hasLeadingLParen t then headCtx else []) ++
        (if (firstNode t.after).all isInstrKind then [.instr] else [])
    | .MODULE_FIELD_TYPE => if hasLeadingLParen t then [.keyword t!"func"] else []
    | .PLAIN_INSTR => instrCtx t p
    | .OPERAND =>
      match (p.enclosing fun k => k == .PLAIN_INSTR).bind Red.instrName with
      | none => []
      | some name => operandCtx name p
    | .PARAM | .RESULT | .LOCAL | .GLOBAL_TYPE => if t.text.head? = some '$' then [] else [.valType]
    | .TYPE_USE => [.funcType]
    | .FUNC_TYPE => if hasLeadingLParen t then [.paramResult] else []
    | .INDEX => indexCtx p
    | .MODULE_FIELD_GLOBAL =>
      if p.hasChild .GLOBAL_TYPE then [.instr]
      else if hasLeadingLParen t then [.keyword t!"mut", .imExport]
      else [.valType]
    | .MODULE_FIELD_EXPORT | .MODULE_FIELD_IMPORT => if hasLeadingLParen t then [.portDesc] else []
    | .MODULE_FIELD_TABLE => if hasLeadingLParen t then [.imExport, .keyword t!"elem"] else [.refType]
    | .MODULE_FIELD_START | .EXPORT_DESC_FUNC => [.func]
    | .EXPORT_DESC_GLOBAL => [.global]
    | .MODULE_FIELD_MEMORY => if hasLeadingLParen t then [.imExport, .keyword t!"data"] else []
    | .MODULE_FIELD_DATA => if hasLeadingLParen t then [.keyword t!"memory", .keyword t!"offset", .instr] else []
    | .MODULE_FIELD_ELEM => elemCtx t p
    | .EXPORT_DESC_MEMORY | .MEM_USE => [.memory]
    | .EXPORT_DESC_TABLE => [.table]
    | .TABLE_TYPE | .IMPORT_DESC_TABLE_TYPE => [.refType]
    | .IMPORT_DESC_TYPE_USE => if hasLeadingLParen t then [.paramResult, .keyword t!"type"] else []
    | .IMPORT_DESC_GLOBAL_TYPE => if hasLeadingLParen t then [.keyword t!"mut"] else [.valType]
    | .ELEM => if hasLeadingLParen t then [.instr, .keyword t!"item"] else [.func]
    | .ELEM_EXPR | .OFFSET => [.instr]
    | .ELEM_LIST => if hasLeadingLParen t then [.keyword t!"item", .instr] else []
    | .TABLE_USE => [.table]
    | .MODULE => if hasLeadingLParen t then [.moduleField] else []
    | .ROOT => if hasLeadingLParen t then [.keyword t!"module"] else []
    | _ => []

/-- completion.rs:711-728 (`get_idx_cmp_text`): label and text to insert. -/
def idxText (i : Idx) (dollar : Bool) : Option (Text × Option Text) :=
  if dollar then
    i.name.bind fun name =>
      match name with
      | '$' :: rest => some (name, some rest)
      | _ => none
  else some (i.shown, none)

/-- An item for an index, with its details (completion.rs:425-439 and its copies). -/
def idxItem (dollar : Bool) (kind : CmpKind) (detail doc : Option Text) (i : Idx) : Option CmpItem :=
  (idxText i dollar).map fun p => ⟨p.1, kind, p.2, detail, doc⟩

/-- The items of a keyword list. -/
def keywordItems (ts : List Text) : List CmpItem := ts.map fun t => ⟨t, .keyword, none, none, none⟩

/-- completion.rs:389-413: the items for types. -/
def typeItems (ts : List Text) : List CmpItem := ts.map fun t => ⟨t, .class, none, none, valueTypeDescription t⟩

/-- `token.parent_ancestors().find(|node| p(node.kind()))`. -/
def Tok.enclosing (t : Tok) (p : Kind → Bool) : Option Red := t.parent.bind fun n => n.enclosing p

/-- completion.rs:421 and its copies. -/
def hasDollar (t : Tok) : Bool := t.text.head? == some '$'

/-- completion.rs:457-472: the item for a function. -/
def funcItem (tb : SymbolTable) (root : Red) (dollar : Bool) (s : Sym) : Ans (Option CmpItem) :=
  match idxText s.idx dollar with
  | none => .done none
  | some p => (renderFuncHeader tb root s).bind fun h => .done (some ⟨p.1, .function, p.2, none, some (t!"```wat\n" ++ h ++ t!"\n```")⟩)

/-- completion.rs:586-617: the blocks around a token, innermost first, as indices. -/
def blockIdxs (tb : SymbolTable) (t : Tok) : List Idx :=
  (tb.symbols.filter fun s => s.kind == .blockDef && s.key.start ≤ t.off && t.stop ≤ s.key.stop).reverse.zipIdx.map
    fun p => ⟨some p.2, p.1.idx.name⟩

/-- completion.rs:380-706: the items of one context. -/
def ctxItems (tb : SymbolTable) (root : Red) (t : Tok) : CmpCtx → Ans (List CmpItem)
  | .instr => .done (instrNames.map fun n => ⟨n, .operator, none, none, none⟩)
  | .valType => .done (typeItems valueTypes)
  | .refType => .done (typeItems [t!"funcref", t!"externref"])
  | .local =>
    match t.enclosing fun k => k == .MODULE_FIELD_FUNC with
    | none => .done []
    | some f => .done ((tb.declaredParamsAndLocals f.key).filterMap fun s =>
        idxItem (hasDollar t) .variable ((extractType s.green).map ValType.text) none s.idx)
  | .func =>
    match t.enclosing isModule with
    | none => .done []
    | some m => Ans.filterMapL (funcItem tb root (hasDollar t)) (tb.declaredFields m.key .func)
  | .funcType =>
    match t.enclosing isModule with
    | none => .done []
    | some m => .done ((tb.declaredFields m.key .type).filterMap fun s => idxItem (hasDollar t) .interface none none s.idx)
  | .global =>
    match t.enclosing isModule with
    | none => .done []
    | some m => .done ((tb.declaredFields m.key .globalDef).filterMap fun s =>
        idxItem (hasDollar t) .variable ((extractGlobalType s.green).map ValType.text) none s.idx)
  | .memArg => .done ([t!"offset=", t!"align="].map fun n => ⟨n, .snippet, none, none, none⟩)
  | .memory =>
    match t.enclosing isModule with
    | none => .done []
    | some m => .done ((tb.declaredFields m.key .memoryDef).filterMap fun s => idxItem (hasDollar t) .variable none none s.idx)
  | .table =>
    match t.enclosing isModule with
    | none => .done []
    | some m => .done ((tb.symbols.filter fun s => s.kind == .tableDef && s.region == m.key).filterMap fun s =>
        idxItem (hasDollar t) .variable none none s.idx)
  | .block => .done ((blockIdxs tb t).filterMap (idxItem (hasDollar t) .variable none none))
  | .moduleField => .done (keywordItems moduleFields)
  | .imExport => .done (keywordItems [t!"import", t!"export"])
  | .paramResult => .done (keywordItems [t!"param", t!"result"])
  | .portDesc => .done (keywordItems portDesc)
  | .keyword k => .done (keywordItems [k])

/-- completion.rs:371-709 (`get_cmp_list`). -/
def cmpList (tb : SymbolTable) (root : Red) (t : Tok) (ctx : List CmpCtx) : Ans (List CmpItem) :=
  (Ans.mapL (ctxItems tb root t) ctx).bind fun l => .done l.flatten

/-- completion.rs:20-28 (`completion`). -/
def completion (src : Text) (root : Red) (pos : Pos) : Ans (Option (List CmpItem)) :=
  (cmpToken src root pos).bindO fun t =>
    match cmpCtx t with
    | [] => .done none
    | ctx => (cmpList (symbolTable root) root t ctx).bind fun items => .done (some items)

end Verif
