import Verif.Model.Completion
import Verif.Model.InstrMeta
/-!
Hover: `/repo/crates/service/src/features/hover.rs`.
-/
namespace Verif

/-- `lsp_types::HoverContents`: the code only uses `LanguageString`s in the language `wat` and Markdown. -/
inductive HoverContents where
  | scalar (wat : Text)
  | array (wats : List Text)
  | markup (md : Text)
  deriving DecidableEq, Repr

/-- `lsp_types::Hover`; the code always gives a range. -/
structure Hover where
  contents : HoverContents
  range : Range
  deriving DecidableEq, Repr

/-- `text.strip_prefix(p)` for a string `p`. -/
def stripText (p t : Text) : Option Text := if p.isPrefixOf t then some (t.drop p.length) else none

/-- hover.rs:233: one blank or tab after the marker is left out. -/
def stripBlank : Text → Text
  | ' ' :: t => t
  | '\t' :: t => t
  | t => t

/-- hover.rs:228-236: one step of the fold: the comments come nearest first, each is put before the text so far. -/
def docStep (doc comment : Text) : Text :=
  (match stripText t!";;;" comment with
    | some text => stripBlank text
    | none => []) ++ (if doc.isEmpty then doc else '\n' :: doc)

/-- hover.rs:213-227: the comments that document a function, nearest first. -/
def docComments (n : Red) : List Text :=
  (((n.before.takeWhile fun e => e.kind == .LINE_COMMENT || e.kind == .WHITESPACE).filterMap fun e =>
    match e with
    | .tok t => if t.kind == .LINE_COMMENT then some t.text else none
    | .node _ => none).dropWhile fun t => !(t!";;;").isPrefixOf t).takeWhile fun t => (t!";;;").isPrefixOf t

/-- hover.rs:213-236. -/
def docText (n : Red) : Text := (docComments n).foldl docStep []

/-- hover.rs:206-247 (`create_func_hover`). -/
def funcHover (tb : SymbolTable) (root : Red) (s : Sym) : Ans Text :=
  (Ans.ofOption (s.key.toNode root)).bind fun n =>
    (renderFuncHeader tb root s).bind fun h =>
      .done (t!"```wat\n" ++ h ++ t!"\n```" ++ if (docText n).isEmpty then [] else t!"\n---\n" ++ docText n)

/-- A blank and the name, if there is one. -/
def nameText : Option Text → Text
  | some n => ' ' :: n
  | none => []

/-- hover.rs:249-274 (`create_param_or_local_hover`). -/
def localHover (s : Sym) : Text :=
  '(' :: (match s.kind with
    | .param => t!"param" ++ nameText s.idx.name
    | .local => t!"local" ++ nameText s.idx.name
    | _ => []) ++ nameText ((extractType s.green).map ValType.text) ++ t!")"

/-- hover.rs:276-305 (`create_global_def_hover`). -/
def globalHover (root : Red) (s : Sym) : Ans Text :=
  (Ans.ofOption (s.key.toNode root)).bind fun n =>
    .done ('(' :: (if s.kind == .globalDef then t!"global" ++ nameText s.idx.name else []) ++
      (match n.childOf .GLOBAL_TYPE with
        | none => []
        | some gt =>
          let mutable := (gt.token .KEYWORD).isSome
          (if mutable then t!" (mut" else []) ++ nameText ((gt.childOf .VAL_TYPE).map fun v => v.green.text) ++
            if mutable then t!")" else []) ++ t!")")

/-- hover.rs:320-328: the function type of a type definition. -/
def typeSigText (g : Green) : Ans Text :=
  match funcTypeOf g with
  | none => .done []
  | some ft => (extractSig ft).bind fun sig =>
    .done (t!" (func" ++ (if sig.params.isEmpty && sig.results.isEmpty then [] else ' ' :: sig.render) ++ t!")")

/-- hover.rs:307-331 (`create_type_def_hover`). -/
def typeHover (s : Sym) : Ans Text :=
  (typeSigText s.green).bind fun sig =>
    .done (t!"(type" ++ (if s.kind == .type then nameText s.idx.name else []) ++ sig ++ t!")")

/-- hover.rs:182-204 (`create_def_hover`). -/
def defHover (tb : SymbolTable) (root : Red) (s : Sym) : Ans (Option HoverContents) :=
  match s.kind with
  | .param | .local => .done (some (.scalar (localHover s)))
  | .func => (funcHover tb root s).bind fun t => .done (some (.markup t))
  | .type => (typeHover s).bind fun t => .done (some (.scalar t))
  | .globalDef => (globalHover root s).bind fun t => .done (some (.scalar t))
  | _ => .done none

/-- hover.rs:62-74: the hovers of several functions, with a rule between. -/
def joinHovers (ts : List Text) : Text := ts.foldl (fun acc t => (if acc.isEmpty then acc else acc ++ t!"\n---\n") ++ t) []

/-- hover.rs:54-117: the contents for a reference. -/
def refHover (tb : SymbolTable) (root : Red) (key : Key) : Ans (Option HoverContents) :=
  match tb.byKey key with
  | none => .done none
  | some s =>
    match s.kind with
    | .call =>
      match tb.findDefs key with
      | none => .done none
      | some ds => (Ans.mapL (funcHover tb root) ds).bind fun ts => .done (some (.markup (joinHovers ts)))
    | .typeUse =>
      match tb.findDefs key with
      | none => .done none
      | some ds => (Ans.mapL typeHover ds).bind fun ts => .done (some (.array ts))
    | .globalRef =>
      match tb.findDefs key with
      | none => .done none
      | some ds => (Ans.mapL (globalHover root) ds).bind fun ts => .done (some (.array ts))
    | _ => .done none

/-- hover.rs:118-131 and 150-155: the contents for the declaration of a key. -/
def declHover (tb : SymbolTable) (root : Red) (key : Key) : Ans (Option HoverContents) :=
  match tb.byKey key with
  | none => .done none
  | some s => defHover tb root s

/-- hover.rs:39-178: the contents for a token. -/
def hoverContents (tb : SymbolTable) (root : Red) (t : Tok) : Ans (Option HoverContents) :=
  match t.kind with
  | .IDENT | .INT | .UNSIGNED_INT =>
    match t.parent with
    | none => .done none
    | some p =>
      match tb.findParamOrLocalDef p.key with
      | some s => .done (some (.scalar (localHover s)))
      | none =>
        (refHover tb root p.key).bind fun
          | some c => .done (some c)
          | none => declHover tb root p.key
  | .NUM_TYPE | .VEC_TYPE | .REF_TYPE =>
    .done ((valueTypeDescription t.text).map fun doc => .markup (t!"```wat\n" ++ t.text ++ t!"\n```\n\n" ++ doc))
  | .KEYWORD =>
    match t.parent with
    | none => .done none
    | some p => declHover tb root p.key
  | .INSTR_NAME =>
    .done ((instrMeta t.text).map fun m => .markup (t!"```wat\n" ++ t.text ++ t!"\n```\nBinary Opcode: " ++ m.binOp))
  | _ => .done none

/-- hover.rs:22-179 (`hover`). -/
def hover (src : Text) (root : Red) (pos : Pos) : Ans (Option Hover) :=
  (findMeaningfulToken src root pos).bindO fun t =>
    (hoverContents (symbolTable root) root t).bindO fun c =>
      (Ans.ofOption (rowanRangeToLsp src t.off t.stop)).bind fun r => .done (some ⟨c, r⟩)

end Verif
