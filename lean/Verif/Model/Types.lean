import Verif.Model.Nav
import Verif.Model.InstrMeta
/-!
Types and signatures: `/repo/crates/service/src/types_analyzer.rs` and `/repo/crates/service/src/helpers.rs`.
The database gives every query the tree and the symbol table of the document; here they are arguments.
-/
namespace Verif

/-- types_analyzer.rs:147-159 (`Display for ValType`). -/
def ValType.text : ValType → Text
  | .i32 => t!"i32"
  | .i64 => t!"i64"
  | .f32 => t!"f32"
  | .f64 => t!"f64"
  | .v128 => t!"v128"
  | .funcref => t!"funcref"
  | .externref => t!"externref"

/-- types_analyzer.rs:164-169, 197-203: the number type of a name. -/
def numTypeNamed (t : Text) : Option ValType :=
  if t = t!"i32" then some .i32
  else if t = t!"i64" then some .i64
  else if t = t!"f32" then some .f32
  else if t = t!"f64" then some .f64
  else none

/-- types_analyzer.rs:173-177, 205-209: the reference type of a name. -/
def refTypeNamed (t : Text) : Option ValType :=
  if t = t!"funcref" then some .funcref
  else if t = t!"externref" then some .externref
  else none

/-- types_analyzer.rs:161-183 (`From<AstValType>`); `panic` is its `unreachable!`. -/
def valTypeOf (n : Red) : Ans ValType :=
  match n.token .NUM_TYPE with
  | some t => Ans.ofOption (numTypeNamed t.text)
  | none =>
    match n.token .VEC_TYPE with
    | some _ => .done .v128
    | none =>
      match n.token .REF_TYPE with
      | some t => Ans.ofOption (refTypeNamed t.text)
      | none => .panic

/-- types_analyzer.rs:190-216: the type a token stands for. -/
def tokType : Green → Option ValType
  | .tok .NUM_TYPE t => numTypeNamed t
  | .tok .VEC_TYPE _ => some .v128
  | .tok .REF_TYPE t => refTypeNamed t
  | _ => none

/-- types_analyzer.rs:185-220 (`TryFrom<GreenNode>`). -/
def greenType (g : Green) : Option ValType := g.children.findSome? tokType

/-- types_analyzer.rs:40-49 (`extract_type`). -/
def extractType (g : Green) : Option ValType :=
  match greenType g with
  | some t => some t
  | none => g.children.findSome? fun
    | .node .VAL_TYPE cs => greenType (.node .VAL_TYPE cs)
    | _ => none

/-- types_analyzer.rs:51-58 (`extract_global_type`). -/
def extractGlobalType (g : Green) : Option ValType :=
  (g.children.find? fun c => c.isNode && c.kind == .GLOBAL_TYPE).bind extractType

/-- types_analyzer.rs:222-226 (`FuncSig`). -/
structure FuncSig where
  params : List (ValType × Option Text)
  results : List ValType
  deriving DecidableEq, Repr

/-- types_analyzer.rs:62-74: the parameters a group declares. -/
def paramTypes (p : Red) : Ans (List (ValType × Option Text)) :=
  match p.identText, p.childOf .VAL_TYPE with
  | some name, some ty => (valTypeOf ty).bind fun v => .done [(v, some name)]
  | _, _ => (Ans.mapL valTypeOf (p.childrenOf .VAL_TYPE)).bind fun vs => .done (vs.map fun v => (v, none))

/-- types_analyzer.rs:60-80 (`extract_sig`).  The code makes the node a root of its own; no position is read. -/
def extractSig (g : Green) : Ans FuncSig :=
  (Ans.mapL paramTypes ((Red.root g).childrenOf .PARAM)).bind fun ps =>
    (Ans.mapL valTypeOf (((Red.root g).childrenOf .RESULT).flatMap fun r => r.childrenOf .VAL_TYPE)).bind fun rs =>
      .done ⟨ps.flatten, rs⟩

/-- helpers.rs:45-54 (`find_func_type_of_type_def`). -/
def funcTypeOf (g : Green) : Option Green := g.children.find? fun c => c.isNode && c.kind == .FUNC_TYPE

/-- types_analyzer.rs:92-99: whether a type use gives parameters or results itself. -/
def hasInline (g : Green) : Bool := g.children.any fun c => c.kind == .PARAM || c.kind == .RESULT

/-- types_analyzer.rs:82-110 (`get_func_sig`).  The `debug_assert` that the symbol is a function holds at all callers:
they pass what `find_defs` returns for a call or a symbol of that kind. -/
def getFuncSig (t : SymbolTable) (root : Red) (s : Sym) : Ans (Option FuncSig) :=
  match s.green.children.find? fun c => c.isNode && c.kind == .TYPE_USE with
  | none => .done none
  | some tu =>
    if hasInline tu then (extractSig tu).bind fun sig => .done (some sig)
    else
      (Ans.ofOption (s.key.toNode root)).bind fun n =>
        match (n.childOf .TYPE_USE).bind fun u => u.childOf .INDEX with
        | none => .done none
        | some i =>
          match ((t.findDefs i.key).bind List.head?).bind fun d => funcTypeOf d.green with
          | none => .done none
          | some ft => (extractSig ft).bind fun sig => .done (some sig)

/-- types_analyzer.rs:234-241: one parameter as text. -/
def renderParam (p : ValType × Option Text) : Text :=
  t!"(param" ++ (match p.2 with | some n => ' ' :: n | none => []) ++ ' ' :: p.1.text ++ t!")"

/-- types_analyzer.rs:247-253: one result as text. -/
def renderResult (r : ValType) : Text := t!"(result " ++ r.text ++ t!")"

/-- The separators of types_analyzer.rs:230-255: a blank between any two parts. -/
def spaced : List Text → Text
  | [] => []
  | [t] => t
  | t :: ts => t ++ ' ' :: spaced ts

/-- types_analyzer.rs:227-257 (`Display for FuncSig`). -/
def FuncSig.render (s : FuncSig) : Text := spaced (s.params.map renderParam ++ s.results.map renderResult)

/-- types_analyzer.rs:112-134 (`render_func_header`), the text for a name and a signature. -/
def headerText (name : Option Text) (sig : Option FuncSig) : Text :=
  t!"(func" ++ (match name with | some n => ' ' :: n | none => []) ++
    (match sig with
      | some s => if s.params.isEmpty && s.results.isEmpty then [] else ' ' :: s.render
      | none => []) ++ t!")"

/-- types_analyzer.rs:112-134 (`render_func_header`). -/
def renderFuncHeader (t : SymbolTable) (root : Red) (s : Sym) : Ans Text :=
  (getFuncSig t root s).bind fun sig =>
    .done (headerText (if s.kind == .func then s.idx.name else none) sig)

end Verif
