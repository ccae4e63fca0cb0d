import Verif.Model.DocSymbol
import Verif.Model.Semantic
import Verif.Model.Types
/-!
Call hierarchy and inlay hints: `/repo/crates/service/src/features/call_hierarchy.rs`, `inlay_hint.rs`.
-/
namespace Verif

/-- `lsp_types::CallHierarchyItem`: the fields that depend on the function. -/
structure CallItem where
  name : Text
  detail : Text
  range : Range
  selection : Range
  deriving DecidableEq, Repr

/-- call_hierarchy.rs:49-70, 74-95, 147-163, 205-229: the item for the symbol of a function. -/
def callItem (src : Text) (root : Red) (s : Sym) : Ans CallItem :=
  (renderFuncHeader (symbolTable root) root s).bind fun detail =>
    (Ans.ofOption (rowanRangeToLsp src s.key.start s.key.stop)).bind fun range =>
      (locationOf src root s).bind fun sel => .done ⟨symbolName s, detail, range, sel⟩

/-- call_hierarchy.rs:45-100: the first symbol with the range that gives an answer. -/
def prepareFrom (src : Text) (root : Red) (start stop : Nat) : List Sym → Ans (Option (List CallItem))
  | [] => .done none
  | s :: ss =>
    if s.key.start == start && s.key.stop == stop then
      match s.kind with
      | .func => (callItem src root s).bind fun i => .done (some [i])
      | .call =>
        match (symbolTable root).findDefs s.key with
        | some ds => (Ans.mapL (callItem src root) ds).bind fun is => .done (some is)
        | none => prepareFrom src root start stop ss
      | _ => prepareFrom src root start stop ss
    else prepareFrom src root start stop ss

/-- call_hierarchy.rs:21-101 (`prepare_call_hierarchy`). -/
def prepareCalls (src : Text) (root : Red) (pos : Pos) : Ans (Option (List CallItem)) :=
  (findMeaningfulToken src root pos).bindO fun token =>
    match token.parent with
    | none => .done none
    | some p => prepareFrom src root p.start p.stop (symbolTable root).symbols

/-- call_hierarchy.rs:113-115, 180-182: the function with the range of an item. -/
def SymbolTable.funcAt (t : SymbolTable) (start stop : Nat) : Option Sym :=
  t.symbols.find? fun s => s.kind == .func && s.key.start == start && s.key.stop == stop

/-- `CallHierarchyIncomingCall` and `CallHierarchyOutgoingCall`: the other function and the ranges of the calls. -/
structure CallEntry where
  item : CallItem
  ranges : List Range
  deriving DecidableEq, Repr

/-- call_hierarchy.rs:125-138: the function that a call is in. -/
def callerOf (t : SymbolTable) (root : Red) (c : Sym) : Ans (Option (Red × Sym)) :=
  (Ans.ofOption (c.key.toNode root)).bind fun n =>
    .done ((n.enclosing (· == .MODULE_FIELD_FUNC)).bind fun f =>
      (t.symbols.find? fun s => s.kind == .func && s.key == f.key).map fun s => (n, s))

/-- call_hierarchy.rs:142-145, 165: the range of the instruction that a call is in, if any. -/
def callRanges (src : Text) (n : Red) : Ans (List Range) :=
  match n.parent with
  | none => .done []
  | some p => (Ans.ofOption (rowanRangeToLsp src p.start p.stop)).bind fun r => .done [r]

/-- call_hierarchy.rs:125-166: the entry for a call. -/
def incomingEntry (src : Text) (root : Red) (c : Sym) : Ans (Option CallEntry) :=
  (callerOf (symbolTable root) root c).bindO fun q =>
    (callRanges src q.1).bind fun rs =>
      (callItem src root q.2).bind fun i => .done (some ⟨i, rs⟩)

/-- call_hierarchy.rs:104-169 (`call_hierarchy_incoming_calls`), given the range of the item. -/
def incomingCalls (src : Text) (root : Red) (r : Range) : Ans (Option (List CallEntry)) :=
  (lspRangeToRowan src r).bindO fun ab =>
    match (symbolTable root).funcAt ab.1 ab.2 with
    | none => .done none
    | some callee =>
      (Ans.filterMapL (incomingEntry src root) ((symbolTable root).symbols.filter fun s =>
        s.kind == .call && s.idx.isDefinedBy callee.idx && callee.region == s.region)).bind fun es => .done (some es)

/-- call_hierarchy.rs:188-230: the entries for an instruction. -/
def outgoingEntries (src : Text) (root : Red) (n : Red) : Ans (List CallEntry) :=
  (Ans.ofOption (rowanRangeToLsp src n.start n.stop)).bind fun r =>
    Ans.mapL (fun s => (callItem src root s).bind fun i => .done ⟨i, [r]⟩)
      ((((n.childrenOf .OPERAND).filterMap fun o => (symbolTable root).findDefs o.key).flatten).filter fun s => s.kind == .func)

/-- call_hierarchy.rs:171-230 (`call_hierarchy_outgoing_calls`), given the range of the item. -/
def outgoingCalls (src : Text) (root : Red) (r : Range) : Ans (Option (List CallEntry)) :=
  (lspRangeToRowan src r).bindO fun ab =>
    match (symbolTable root).funcAt ab.1 ab.2 with
    | none => .done none
    | some f =>
      (Ans.ofOption (f.key.toNode root)).bind fun func =>
        (Ans.mapL (outgoingEntries src root) (func.descendants.filter fun n => n.kind == .PLAIN_INSTR && isCall n)).bind
          fun es => .done (some es.flatten)

/-! ### Inlay hints -/

/-- `lsp_types::InlayHint`: position and label. -/
structure Hint where
  position : Pos
  label : Text
  deriving DecidableEq, Repr

/-- `TextRange::contains_range`. -/
def containsRange (ab : Nat × Nat) (start stop : Nat) : Bool := ab.1 ≤ start && stop ≤ ab.2

/-- `SyntaxNode::last_child_or_token().text_range()`. -/
def Red.lastRange (n : Red) : Option (Nat × Nat) :=
  n.els.getLast?.map fun
    | .node c => (c.start, c.stop)
    | .tok t => (t.off, t.stop)

/-- A hint at an offset. -/
def hintAt (src : Text) (off : Nat) (label : Text) : Ans (Option Hint) :=
  (Ans.ofOption (rowanPosToLsp src off)).bind fun p => .done (some ⟨p, label⟩)

/-- inlay_hint.rs:24-88: the hint for a symbol. -/
def symbolHint (src : Text) (root : Red) (ab : Nat × Nat) (s : Sym) : Ans (Option Hint) :=
  match s.kind with
  | .localRef =>
    if containsRange ab s.key.start s.key.stop then
      match ((symbolTable root).findParamOrLocalDef s.key).bind fun d => extractType d.green with
      | some ty => hintAt src s.key.stop ty.text
      | none => .done none
    else .done none
  | .globalRef =>
    if containsRange ab s.key.start s.key.stop then
      match (((symbolTable root).findDefs s.key).bind List.head?).bind fun d => extractGlobalType d.green with
      | some ty => hintAt src s.key.stop ty.text
      | none => .done none
    else .done none
  | .func =>
    (Ans.ofOption (s.key.toNode root)).bind fun n =>
      match n.lastRange.filter (fun l => containsRange ab l.1 l.2), s.idx.name with
      | some l, some name => hintAt src l.2 (t!"(func " ++ name ++ t!")")
      | _, _ => .done none
  | _ => .done none

/-- inlay_hint.rs:13-91 (`inlay_hint`). -/
def inlayHints (src : Text) (root : Red) (r : Range) : Ans (Option (List Hint)) :=
  (lspRangeToRowan src r).bindO fun ab =>
    (Ans.filterMapL (symbolHint src root ab) (symbolTable root).symbols).bind fun hs => .done (some hs)

end Verif
