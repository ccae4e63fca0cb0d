import Verif.Model.Calls
/-!
Code actions: `/repo/crates/service/src/features/code_action.rs` and `/repo/crates/service/src/refactorings/`.
-/
namespace Verif

/-- The child that the binary search of `child_or_token_at_range` comes up with. -/
def nearChild (ab : Nat × Nat) (es : List El) : Option El :=
  match es.find? fun e => !(decide (e.stop ≤ ab.1)) && !(decide (ab.2 ≤ e.start)) with
  | some e => some e
  | none =>
    match (es.filter fun e => e.stop ≤ ab.1).getLast? with
    | some e => some e
    | none => es.head?

/-- `rowan`'s search for the child at a range (`child_or_token_at_range`): a binary search for a child that overlaps
the range; without one (empty ranges only) the child before the place to insert, or the first; in any case the child
must contain the range.  (When more than one child overlaps the range none of them contains it, so the choice the
binary search makes does not matter.) -/
def childAtRange (ab : Nat × Nat) (es : List El) : Option El :=
  Option.filter (fun e => e.start ≤ ab.1 && ab.2 ≤ e.stop) (nearChild ab es)

/-- The nodes that the loop of code_action.rs:26-74 visits, outermost first; `fuel` bounds the depth. -/
def nodesAt (ab : Nat × Nat) : Nat → Red → List Red
  | 0, _ => []
  | fuel + 1, n =>
    match childAtRange ab n.els with
    | some (.node c) => c :: nodesAt ab fuel c
    | _ => []

/-! ### fix_invalid_mem_arg.rs -/

/-- fix_invalid_mem_arg.rs:23-25: what follows `offset` or `align`. -/
def memArgRest (t : Text) : Option Text :=
  if t!"offset".isPrefixOf t then some (t.drop 6)
  else if t!"align".isPrefixOf t then some (t.drop 5)
  else none

/-- fix_invalid_mem_arg.rs:28-33, 95-100: the range of a blank. -/
def blankRange : Option El → Option (Nat × Nat)
  | some (.tok t) => if t.kind == .WHITESPACE then some (t.off, t.stop) else none
  | _ => none

/-- fix_invalid_mem_arg.rs:36-45: an error token made of `=` and digits. -/
def isEqDigits : Option El → Bool
  | some (.tok t) => t.kind == .ERROR &&
    match t.text with
    | '=' :: ds => ds.all isDigit
    | _ => false
  | _ => false

/-- fix_invalid_mem_arg.rs:101-106: an operand that is an integer. -/
def isIntOperand : Option El → Bool
  | some (.node n) => n.kind == .OPERAND && (n.token .INT).isSome
  | _ => false

/-- fix_invalid_mem_arg.rs:94-107 (`check_after_eq`), given the remaining children. -/
def checkAfterEq (es : List El) : Option (Nat × Nat) := if isIntOperand es[1]? then blankRange es[0]? else none

/-- fix_invalid_mem_arg.rs:16-73: the ranges that the fix deletes.  `skip` counts the children that the body of the
loop has consumed already. -/
def fixRanges : Nat → List El → List (Nat × Nat)
  | _, [] => []
  | skip + 1, _ :: es => fixRanges skip es
  | 0, .node _ :: es => fixRanges 0 es
  | 0, .tok t :: es =>
    if t.kind != .ERROR then fixRanges 0 es
    else
      match memArgRest t.text with
      | some [] =>
        match if isEqDigits es[1]? then blankRange es[0]? else none with
        | some ab => ab :: (checkAfterEq (es.drop 2)).toList
        | none => fixRanges 2 es
      | some ['='] =>
        match checkAfterEq es with
        | some ab => [ab]
        | none => fixRanges 2 es
      | _ => fixRanges 0 es

/-- A `lsp_types::CodeAction`: title, kind and the edits to the document. -/
structure Action where
  title : Text
  kind : Text
  edits : List TextEdit
  deriving DecidableEq, Repr

/-- `CodeActionKind::QUICKFIX`. -/
def quickfixKind : Text := t!"quickfix"
/-- `CodeActionKind::REFACTOR_REWRITE`. -/
def rewriteKind : Text := t!"refactor.rewrite"

/-- An edit of a range of offsets. -/
def editAt (src : Text) (ab : Nat × Nat) (t : Text) : Ans TextEdit :=
  (Ans.ofOption (rowanRangeToLsp src ab.1 ab.2)).bind fun r => .done ⟨r, t⟩

/-- fix_invalid_mem_arg.rs:8-92 (`act`). -/
def fixMemArg (src : Text) (n : Red) : Ans (Option Action) :=
  (Ans.mapL (fun ab => editAt src ab []) (fixRanges 0 n.els)).bind fun es =>
    .done (if es.isEmpty then none else some ⟨t!"Fix invalid memory argument", quickfixKind, es⟩)

/-! ### func_header_split.rs -/

/-- func_header_split.rs:26-31: the keyword of a declaration. -/
def splitKeyword : Kind → Option Text
  | .PARAM => some t!"param"
  | .RESULT => some t!"result"
  | .LOCAL => some t!"local"
  | _ => none

/-- func_header_split.rs:53-58: the title. -/
def splitTitle : Kind → Text
  | .PARAM => t!"Split parameters"
  | .RESULT => t!"Split results"
  | _ => t!"Split locals"

/-- func_header_split.rs:33-41: one declaration. -/
def oneDecl (kw ty : Text) : Text := '(' :: kw ++ ' ' :: ty ++ [')']

/-- func_header_split.rs:7-66 (`act`); the kind it is given is the kind of the node (code_action.rs:37-63). -/
def splitDecl (src : Text) (n : Red) : Ans (Option Action) :=
  match n.childrenOf .VAL_TYPE with
  | first :: second :: rest =>
    match splitKeyword n.kind with
    | none => .done none
    | some kw =>
      (editAt src (n.start, n.stop)
        (oneDecl kw first.green.text ++ (second :: rest).flatMap fun ty => ' ' :: oneDecl kw ty.green.text)).bind fun e =>
        .done (some ⟨splitTitle n.kind, rewriteKind, [e]⟩)
  | _ => .done none

/-! ### params_join.rs -/

/-- params_join.rs:73-79 (`is_joinable_param`). -/
def isJoinable (ab : Nat × Nat) (n : Red) : Bool :=
  n.kind == .PARAM && containsRange ab n.start n.stop && !(n.els.any fun e => e.kind == .IDENT)

/-- params_join.rs:15-19: the parameters to be joined. -/
def joinedParams (ab : Nat × Nat) (n : Red) : List Red :=
  (n.children.dropWhile fun c => !isJoinable ab c).takeWhile (isJoinable ab)

/-- params_join.rs:8-71 (`act`). -/
def joinParams (src : Text) (ab : Nat × Nat) (n : Red) : Ans (Option Action) :=
  match joinedParams ab n with
  | [] => .done none
  | firstNode :: others =>
    match (firstNode :: others).flatMap fun p => p.childrenOf .VAL_TYPE with
    | first :: second :: rest =>
      (editAt src (firstNode.start, ((firstNode :: others).getLastD firstNode).stop)
        (t!"(param " ++ first.green.text ++ ((second :: rest).flatMap fun ty => ' ' :: ty.green.text) ++ [')'])).bind fun e =>
        .done (some ⟨t!"Join parameters", rewriteKind, [e]⟩)
    | _ => .done none

/-! ### code_action.rs -/

/-- code_action.rs:27-72: the action for a node on the way. -/
def actionAt (src : Text) (quickfix rewrite : Bool) (ab : Nat × Nat) (n : Red) : Ans (Option Action) :=
  match n.kind with
  | .PLAIN_INSTR => if quickfix then fixMemArg src n else .done none
  | .PARAM | .RESULT | .LOCAL => if rewrite then splitDecl src n else .done none
  | .TYPE_USE | .FUNC_TYPE => if rewrite then joinParams src ab n else .done none
  | _ => .done none

/-- code_action.rs:12-20: whether a kind of action is wanted. -/
def wants (only : Option (List Text)) (k : Text) : Bool :=
  match only with
  | none => true
  | some ks => ks.any fun x => x == k

/-- code_action.rs:7-81 (`code_action`). -/
def codeActions (src : Text) (root : Red) (only : Option (List Text)) (r : Range) : Ans (Option (List Action)) :=
  (lspRangeToRowan src r).bindO fun ab =>
    (Ans.filterMapL (actionAt src (wants only quickfixKind) (wants only rewriteKind) ab)
      (nodesAt ab root.descendants.length root)).bind fun as => .done (if as.isEmpty then none else some as)

end Verif
