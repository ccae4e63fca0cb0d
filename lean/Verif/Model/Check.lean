import Verif.Model.Types
/-!
The checkers: `/repo/crates/service/src/checker/` (`mod.rs`, `multi_modules.rs`, `undef.rs`, `dup_names.rs`,
`literal_operands.rs`, `typeck.rs`) and the syntax errors of `/repo/crates/service/src/files.rs:31-56`.

Messages are values that hold what the code formats into a string; severity and source, the same for all, are left
out.  Diagnostics are first collected with byte offsets and converted to ranges of positions at the end; the code
converts each when it makes it.  Both panic for the same documents.
-/
namespace Verif

/-- The messages of diagnostics. -/
inductive DiagMsg where
  /-- "syntax error: ..", files.rs:49 -/
  | syn (m : Msg)
  /-- "only one module is allowed in one file", multi_modules.rs:15 -/
  | onlyOneModule
  /-- "cannot find `..` in this scope", undef.rs:45-53 -/
  | cannotFind (index : Text)
  /-- "duplicated name `..` in this scope", dup_names.rs:54, 145 -/
  | duplicated (name : Text)
  /-- "expected identifier or unsigned integer", literal_operands.rs:42 and others -/
  | expectedIndex
  /-- "expected integer", literal_operands.rs:46 -/
  | expectedInt
  /-- "expected floating-point number", literal_operands.rs:51 -/
  | expectedFloat
  /-- "expected memory argument", literal_operands.rs:73, 96 -/
  | expectedMemArg
  /-- "expected instr", typeck.rs:65 -/
  | expectedInstr
  /-- "expected .. operands, found ..", typeck.rs:320-325 -/
  | operandCount (expected received : Nat)
  /-- "expected type `..`, found `..`", typeck.rs:101, 200 -/
  | typeMismatch (expected received : ValType)
  deriving DecidableEq, Repr

/-- A diagnostic with byte offsets; `related` are the ranges of its related information. -/
structure RawDiag where
  start : Nat
  stop : Nat
  msg : DiagMsg
  related : List (Nat × Nat)
  deriving DecidableEq, Repr

/-- `lsp_types::Diagnostic`. -/
structure Diag where
  range : Range
  msg : DiagMsg
  related : List Range
  deriving DecidableEq, Repr

/-- A diagnostic at a node. -/
def nodeDiag (n : Red) (m : DiagMsg) : RawDiag := ⟨n.start, n.stop, m, []⟩

/-- multi_modules.rs:6-19 (`check`). -/
def checkModules (root : Red) : List RawDiag :=
  ((root.childrenOf .MODULE).drop 1).map fun m => nodeDiag m .onlyOneModule

/-- undef.rs:20-42: whether a symbol is a reference without definition. -/
def SymbolTable.isUndefined (t : SymbolTable) (s : Sym) : Bool :=
  match s.kind with
  | .module | .func | .param | .local | .type | .globalDef | .memoryDef | .tableDef | .blockDef => false
  | .call | .typeUse | .globalRef | .memoryRef | .tableRef =>
    match t.findDefs s.key with
    | some (_ :: _) => false
    | _ => true
  | .localRef => (t.findParamOrLocalDef s.key).isNone
  | .blockRef => !(t.blocks.any fun b => b.ref == s.key && s.idx.isDefinedBy b.idx)

/-- undef.rs:47-52: an index as text, its name or its number in decimal. -/
def Idx.shown (i : Idx) : Text :=
  match i.name with
  | some n => n
  | none =>
    match i.num with
    | some n => Nat.toDigits 10 n
    | none => []

/-- undef.rs:11-58 (`check`). -/
def checkUndef (t : SymbolTable) : List RawDiag :=
  (t.symbols.filter t.isUndefined).map fun s => ⟨s.key.start, s.key.stop, .cannotFind s.idx.shown, []⟩

/-- dup_names.rs:26-35: the kinds of symbols whose names are checked. -/
def isNamedKind : SymKind → Bool
  | .func | .param | .local | .type | .globalDef | .memoryDef | .blockDef => true
  | _ => false

/-- dup_names.rs:162-166 (`get_ident_range`). -/
def identRange (root : Red) (s : Sym) : Ans (Nat × Nat) :=
  (Ans.ofOption (s.key.toNode root)).bind fun n =>
    match n.token .IDENT with
    | some t => .done (t.off, t.stop)
    | none => .done (s.key.start, s.key.stop)

/-- A "duplicated name" diagnostic for a symbol, the given symbols as related information. -/
def dupDiag (root : Red) (s : Sym) (name : Text) (related : List Sym) : Ans RawDiag :=
  (identRange root s).bind fun r =>
    (Ans.mapL (identRange root) related).bind fun rs => .done ⟨r.1, r.2, .duplicated name, rs⟩

/-- dup_names.rs:37-44: the symbols filed under a name and region. -/
def SymbolTable.namesakes (t : SymbolTable) (name : Text) (region : Key) : List Sym :=
  t.symbols.filter fun s => isNamedKind s.kind && s.idx.name == some name && s.region == region

/-- dup_names.rs:22-77, for one symbol.  The code goes through a hash map of groups; the diagnostics are the same up to
their order, which here is that of the symbols (`Model/DupOrder.lean` has the maps). -/
def checkScope (t : SymbolTable) (root : Red) (s : Sym) : Ans (List RawDiag) :=
  if isNamedKind s.kind then
    match s.idx.name with
    | none => .done []
    | some name =>
      if 1 < (t.namesakes name s.region).length then
        (dupDiag root s name ((t.namesakes name s.region).filter fun o => !(o.same s))).bind fun d => .done [d]
      else .done []
  else .done []

/-- dup_names.rs:93-111: the blocks around a symbol in its chain of regions that have the name.  `fuel` bounds the
`while` loop as in `blockChain`. -/
def SymbolTable.outerNamesakes (t : SymbolTable) (name : Text) : Nat → Key → List Sym
  | 0, _ => []
  | fuel + 1, region =>
    match t.byKey region with
    | none => []
    | some p =>
      if p.kind == .blockDef then
        (if p.idx.name == some name then [p] else []) ++ t.outerNamesakes name fuel p.region
      else []

/-- dup_names.rs:113-131: the blocks in the range of a symbol that have the name. -/
def SymbolTable.innerNamesakes (t : SymbolTable) (s : Sym) (name : Text) : List Sym :=
  t.symbols.filter fun o =>
    !(o.same s) && o.kind == .blockDef && o.idx.name == some name &&
      decide (s.key.start ≤ o.key.start ∧ o.key.stop ≤ s.key.stop)

/-- dup_names.rs:79-160, for one symbol.  Related ranges, which the code sorts by start, are in the order they are
collected; the order of the diagnostics is that of the symbols. -/
def checkLabel (t : SymbolTable) (root : Red) (s : Sym) : Ans (List RawDiag) :=
  if s.kind == .blockDef then
    match s.idx.name with
    | none => .done []
    | some name =>
      let found := t.outerNamesakes name (s.region.start + 1) s.region ++ t.innerNamesakes s name
      if 1 < found.length then (dupDiag root s name found).bind fun d => .done [d]
      else .done []
  else .done []

/-- dup_names.rs:14-160 (`check`). -/
def checkDup (t : SymbolTable) (root : Red) : Ans (List RawDiag) :=
  (Ans.mapL (checkScope t root) t.symbols).bind fun a =>
    (Ans.mapL (checkLabel t root) t.symbols).bind fun b => .done (a.flatten ++ b.flatten)

/-- What an operand must start with, literal_operands.rs:35-102. -/
inductive OperandClass where
  | index | int | float | memArg
  deriving DecidableEq, Repr

/-- literal_operands.rs:35-102: the instructions whose operands are checked, and what their first operands must be. -/
def operandClasses : List (List Text × List OperandClass) :=
  [([t!"call", t!"local.get", t!"local.set", t!"local.tee", t!"global.get", t!"global.set", t!"table.get",
      t!"table.set", t!"ref.func", t!"memory.init", t!"data.drop", t!"elem.drop", t!"table.grow", t!"table.size",
      t!"table.fill", t!"br", t!"br_if"], [.index]),
   ([t!"i32.const", t!"i64.const", t!"v128.const"], [.int]),
   ([t!"f32.const", t!"f64.const"], [.float]),
   ([t!"table.init", t!"table.copy"], [.index, .index]),
   ([t!"i32.load", t!"i64.load", t!"f32.load", t!"f64.load", t!"i32.load8_s", t!"i32.load8_u", t!"i32.load16_s",
      t!"i32.load16_u", t!"i64.load8_s", t!"i64.load8_u", t!"i64.load16_s", t!"i64.load16_u", t!"i64.load32_s",
      t!"i64.load32_u", t!"i32.store", t!"i64.store", t!"f32.store", t!"f64.store", t!"i32.store8", t!"i32.store16",
      t!"i64.store8", t!"i64.store16", t!"i64.store32", t!"v128.load", t!"v128.load8x8_s", t!"v128.load8x8_u",
      t!"v128.load16x4_s", t!"v128.load16x4_u", t!"v128.load32x2_s", t!"v128.load32x2_u", t!"v128.load8_splat",
      t!"v128.load16_splat", t!"v128.load32_splat", t!"v128.load64_splat", t!"v128.store"], [.memArg]),
   ([t!"i8x16.shuffle", t!"i8x16.extract_lane_s", t!"i8x16.extract_lane_u", t!"i8x16.replace_lane",
      t!"i16x8.extract_lane_s", t!"i16x8.extract_lane_u", t!"i16x8.replace_lane", t!"i32x4.extract_lane",
      t!"i32x4.replace_lane", t!"i64x2.extract_lane", t!"i64x2.replace_lane", t!"f32x4.extract_lane",
      t!"f32x4.replace_lane", t!"f64x2.extract_lane", t!"f64x2.replace_lane"], [.index]),
   ([t!"v128.load8_lane", t!"v128.load16_lane", t!"v128.load32_lane", t!"v128.load64_lane", t!"v128.store8_lane",
      t!"v128.store16_lane", t!"v128.store32_lane", t!"v128.store64_lane"], [.memArg, .index])]

/-- literal_operands.rs:35-102: the `match` on the instruction name. -/
def classesOf (name : Text) : List OperandClass :=
  match operandClasses.find? fun r => r.1.contains name with
  | some r => r.2
  | none => []

/-- The token kinds of a class: the `$kind` patterns of literal_operands.rs. -/
def OperandClass.accepts : OperandClass → Kind → Bool
  | .index, k => k == .IDENT || k == .INT
  | .int, k => k == .INT
  | .float, k => k == .FLOAT || k == .INT
  | .memArg, k => k == .MEM_ARG

/-- The messages of literal_operands.rs. -/
def OperandClass.msg : OperandClass → DiagMsg
  | .index => .expectedIndex
  | .int => .expectedInt
  | .float => .expectedFloat
  | .memArg => .expectedMemArg

/-- literal_operands.rs:16-33 (`check_operand!`): the first token of the operand is checked. -/
def checkLiteral (c : OperandClass) (operand : Red) : List RawDiag :=
  match operand.tokens.head? with
  | none => []
  | some t => if c.accepts t.kind then [] else [⟨t.off, t.stop, c.msg, []⟩]

/-- literal_operands.rs:10-103 (`check`). -/
def checkLiterals (n : Red) : List RawDiag :=
  match n.instrName with
  | none => []
  | some name => (((classesOf name).zip (n.childrenOf .OPERAND)).map fun p => checkLiteral p.1 p.2).flatten

/-- `Instr::can_cast` (`/repo/crates/syntax/src/ast/instr.rs:429-440`). -/
def isInstr : Kind → Bool
  | .PLAIN_INSTR | .BLOCK_BLOCK | .BLOCK_LOOP | .BLOCK_IF => true
  | _ => false

/-- `Operand::instr` (`/repo/crates/syntax/src/ast/instr.rs:489-491`). -/
def Red.operandInstr (o : Red) : Option Red := o.children.find? fun c => isInstr c.kind

/-- The first operand of an instruction. -/
def Red.firstOperand (n : Red) : Option Red := (n.childrenOf .OPERAND).head?

/-- The first definition `find_defs` returns for a node (`find_defs(..).into_iter().flatten().next()`). -/
def SymbolTable.firstDef (t : SymbolTable) (n : Red) : Option Sym := (t.findDefs n.key).bind List.head?

/-- typeck.rs:223-276 (`resolve_type`): the types an instruction leaves on the stack, if known. -/
def resolveType (t : SymbolTable) (root : Red) (n : Red) : Ans (Option (List OpType)) :=
  if n.kind == .PLAIN_INSTR then
    match n.instrName with
    | none => .done none
    | some name =>
      if name = t!"call" then
        match n.firstOperand.bind t.firstDef with
        | none => .done none
        | some f => (getFuncSig t root f).bind fun s => .done (s.map fun s => s.results.map .val)
      else if name = t!"local.get" then
        .done ((n.firstOperand.bind fun i => t.findParamOrLocalDef i.key).bind fun s =>
          (extractType s.green).map fun ty => [.val ty])
      else if name = t!"global.get" then
        .done ((n.firstOperand.bind t.firstDef).bind fun s => (extractGlobalType s.green).map fun ty => [.val ty])
      else .done ((instrMeta name).map (·.results))
  else .done none

/-- typeck.rs:279 (`ExpectedType`): a type and the range of the parameter it comes from. -/
abbrev Expected := OpType × Option (Nat × Nat)

/-- typeck.rs:296-304: the ranges of the parameter symbols of a function. -/
def paramRanges (t : SymbolTable) (f : Red) : List (Nat × Nat) :=
  ((t.declaredParamsAndLocals f.key).filter fun s => s.kind == .param).map fun s => (s.key.start, s.key.stop)

/-- typeck.rs:280-318 (`resolve_expected_types`): the types an instruction takes from the stack, if known. -/
def expectedTypes (t : SymbolTable) (root : Red) (n : Red) : Ans (Option (List Expected)) :=
  match n.instrName with
  | none => .done none
  | some name =>
    if name = t!"call" then
      match n.firstOperand.bind t.firstDef with
      | none => .done none
      | some f =>
        (Ans.ofOption (f.key.toNode root)).bind fun fn =>
          (getFuncSig t root f).bind fun s => .done (s.map fun s =>
            (s.params.map fun p => OpType.val p.1).zip ((paramRanges t fn).map some))
    else .done ((instrMeta name).map fun m => m.params.map fun p => (p, none))

/-- typeck.rs:88-119, 177-216: the mismatches between the types expected and the types received; a received type comes
with the node it is reported at. -/
def mismatches (params : List Expected) (received : List (OpType × Red)) : List RawDiag :=
  (params.zip received).filterMap fun
    | ((.val e, related), (.val r, n)) =>
      if e = r then none else some ⟨n.start, n.stop, .typeMismatch e r, related.toList⟩
    | _ => none

/-- typeck.rs:49-70: the types an operand gives and the diagnostic for an operand that is no instruction; `known`
is `meta.is_some()`. -/
def operandTypes (t : SymbolTable) (root : Red) (known : Bool) (o : Red) : Ans (List (OpType × Red) × List RawDiag) :=
  match o.operandInstr with
  | some i => (resolveType t root i).bind fun
    | some tys => .done (tys.map fun ty => (ty, o), [])
    | none => .done ([], [])
  | none => .done ([], if known then [nodeDiag o .expectedInstr] else [])

/-- typeck.rs:43-47: how many operands come before the folded instructions. -/
def immediates (name : Text) : Nat :=
  if name = t!"call" then 1
  else match instrMeta name with
    | some m => m.operandsCount
    | none => 0

/-- typeck.rs:71-119: the checks once the operands are typed. -/
def checkReceived (n : Red) (skip : Nat) (received : List (OpType × Red)) (params : List Expected) : List RawDiag :=
  let expected := params.length + skip
  let count := received.length + ((n.childrenOf .OPERAND).filter fun o => o.operandInstr.isNone).length
  (if expected ≠ count then [nodeDiag n (.operandCount expected count)] else []) ++ mismatches params received

/-- typeck.rs:23-120 (`check_folded`). -/
def checkFolded (t : SymbolTable) (root : Red) (n : Red) : Ans (List RawDiag) :=
  match n.instrName with
  | none => .done []
  | some name =>
    if (n.token .L_PAREN).isNone then .done []
    else
      (Ans.mapL (operandTypes t root (instrMeta name).isSome) ((n.childrenOf .OPERAND).drop (immediates name))).bind fun ops =>
        (expectedTypes t root n).bind fun
          | none => .done (ops.flatMap (·.2))
          | some params => .done (ops.flatMap (·.2) ++ checkReceived n (immediates name) (ops.flatMap (·.1)) params)

/-- typeck.rs:122-217, one plain instruction: the stack of types, each with the instruction it comes from, and the
diagnostics.  `drain` empties the part of the stack above `pop_count`, whatever the number of parameters. -/
def stackStep (t : SymbolTable) (root : Red) (n : Red) (stack : List (OpType × Red)) :
    Ans (List (OpType × Red) × List RawDiag) :=
  (expectedTypes t root n).bind fun
    | none => .done (stack, [])
    | some params =>
      let expected := if (n.token .L_PAREN).isSome then 0 else params.length
      let keep := stack.length - expected
      let under := if stack.length < expected then [nodeDiag n (.operandCount expected stack.length)] else []
      (resolveType t root n).bind fun tys =>
        .done (stack.take keep ++ (tys.getD []).map fun ty => (ty, n), under ++ mismatches params (stack.drop keep))

/-- typeck.rs:148-218: the loop over the instructions of a body; blocks are passed over. -/
def stackRun (t : SymbolTable) (root : Red) : List Red → List (OpType × Red) → Ans (List RawDiag)
  | [], _ => .done []
  | n :: ns, stack =>
    if n.kind == .PLAIN_INSTR then
      (stackStep t root n stack).bind fun r => (stackRun t root ns r.1).bind fun ds => .done (r.2 ++ ds)
    else stackRun t root ns stack

/-- typeck.rs:122-221 (`check_stacked`): a body of folded instructions only is not checked. -/
def checkStacked (t : SymbolTable) (root : Red) (n : Red) : Ans (List RawDiag) :=
  let body := n.children.filter fun c => isInstr c.kind
  if body.all fun c => (c.token .L_PAREN).isSome then .done []
  else stackRun t root body []

/-- mod.rs:17-42: the checks of one node. -/
def checkNode (t : SymbolTable) (root : Red) (n : Red) : Ans (List RawDiag) :=
  match n.kind with
  | .ROOT => .done (checkModules n)
  | .MODULE_FIELD_FUNC | .MODULE_FIELD_GLOBAL => checkStacked t root n
  | .PLAIN_INSTR => (checkFolded t root n).bind fun ds => .done (checkLiterals n ++ ds)
  | _ => .done []

/-- mod.rs:11-56 (`check`) without the syntax errors, with byte offsets. -/
def checkRaw (root : Red) : Ans (List RawDiag) :=
  let t := symbolTable root
  (Ans.mapL (checkNode t root) root.descendants).bind fun ds =>
    (checkDup t root).bind fun dups => .done (ds.flatten ++ checkUndef t ++ dups)

/-- The conversion of a diagnostic to positions (`rowan_range_to_lsp_range` at each use). -/
def toDiag (src : Text) (d : RawDiag) : Ans Diag :=
  (Ans.ofOption (rowanRangeToLsp src d.start d.stop)).bind fun r =>
    (Ans.mapL (fun p : Nat × Nat => Ans.ofOption (rowanRangeToLsp src p.1 p.2)) d.related).bind fun rs =>
      .done ⟨r, d.msg, rs⟩

/-- mod.rs:11-56 (`check`): the diagnostics of a document, as pulled (diagnostics.rs:9-25) or published
(diagnostics.rs:28-34).  `errs` are the syntax errors, files.rs:38-53. -/
def diagnostics (src : Text) (root : Red) (errs : List Err) : Ans (List Diag) :=
  (checkRaw root).bind fun ds =>
    Ans.mapL (toDiag src) (errs.map (fun e => (⟨e.start, e.stop, .syn e.msg, []⟩ : RawDiag)) ++ ds)

end Verif
