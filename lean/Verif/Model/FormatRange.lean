import Verif.Model.Format
import Verif.Model.Action
/-!
Formatting requests: `format_range` of `/repo/crates/formatter/src/lib.rs` and
`/repo/crates/service/src/features/formatting.rs`.
-/
namespace Verif

/-- mod.rs:23-83: the kinds that `format_node` has an arm for. -/
def fmtHandled : List Kind :=
  [.MODULE_NAME, .NAME, .VAL_TYPE, .FUNC_TYPE, .PARAM, .RESULT, .TABLE_TYPE, .MEMORY_TYPE, .GLOBAL_TYPE, .BLOCK_TYPE,
   .PLAIN_INSTR, .BLOCK_BLOCK, .BLOCK_LOOP, .BLOCK_IF, .BLOCK_IF_THEN, .BLOCK_IF_ELSE, .OPERAND, .TYPE_USE, .LIMITS,
   .IMPORT, .EXPORT, .IMPORT_DESC_TYPE_USE, .IMPORT_DESC_TABLE_TYPE, .IMPORT_DESC_MEMORY_TYPE, .IMPORT_DESC_GLOBAL_TYPE,
   .EXPORT_DESC_FUNC, .EXPORT_DESC_TABLE, .EXPORT_DESC_MEMORY, .EXPORT_DESC_GLOBAL, .INDEX, .LOCAL, .MEM_USE, .OFFSET,
   .ELEM, .ELEM_LIST, .ELEM_EXPR, .TABLE_USE, .DATA, .MODULE, .MODULE_FIELD_DATA, .MODULE_FIELD_ELEM,
   .MODULE_FIELD_EXPORT, .MODULE_FIELD_FUNC, .MODULE_FIELD_GLOBAL, .MODULE_FIELD_IMPORT, .MODULE_FIELD_MEMORY,
   .MODULE_FIELD_START, .MODULE_FIELD_TABLE, .MODULE_FIELD_TYPE, .ROOT]

/-- The siblings before a node, nearest first (`prev_sibling_or_token`).  Simplification: a node that covers no text
may get too many of them; only the siblings before a module matter, and a module covers its parenthesis. -/
def Red.sibsBefore (r : Red) : List Green :=
  match r.parent with
  | none => []
  | some p => ((p.els.filter fun e => e.stop ≤ r.start).map fun
      | .node n => n.green
      | .tok t => .tok t.kind t.text).reverse

/-- mod.rs:23-83 (`format_node`), `none` for kinds without an arm. -/
def formatNode (o : FmtOpts) (r : Red) : Option Doc :=
  if fmtHandled.contains r.kind then some (fmtDoc o r.sibsBefore r.green) else none

/-- lib.rs:32-35: the innermost node found at the range.  The fuel is the number of nodes. -/
def nodeAtRange (root : Red) (ab : Nat × Nat) : Red := (nodesAt ab root.descendants.length root).getLastD root

/-- lib.rs:26-42 (`format_range`): the document to print and the range it replaces. -/
def formatRange (o : FmtOpts) (src : Text) (root : Red) (ab : Nat × Nat) : Ans (Option (Doc × Nat × Nat)) :=
  let node := nodeAtRange root ab
  match lineCol src node.start with
  | some p => .done ((formatNode o node).map fun d => (.nest p.character d, node.start, node.stop))
  | none => .panic

/-- A text edit whose new text is a document still to be laid out. -/
structure DocEdit where
  range : Range
  doc : Doc
  deriving Repr, Inhabited

/-- formatting.rs:44-54 (`build_options`): the options of the printer; the language options are the defaults
(`/repo/crates/formatter/src/config.rs:107-114`).  The layout options reach `tiny_pretty` only. -/
def serviceOpts (tabSize : Nat) : FmtOpts := { indent := tabSize }

/-- formatting.rs:12-23 (`formatting`). -/
def formatting (src : Text) (root : Red) (tabSize : Nat) : Ans DocEdit :=
  match rowanRangeToLsp src root.start root.stop with
  | some r => .done ⟨r, format (serviceOpts tabSize) root.green⟩
  | none => .panic

/-- formatting.rs:37-40: the edit of a formatted range. -/
def rangeEdit (src : Text) : Option (Doc × Nat × Nat) → Ans (Option DocEdit)
  | none => .done none
  | some (d, a, b) =>
    match rowanRangeToLsp src a b with
    | some r => .done (some ⟨r, d⟩)
    | none => .panic

/-- formatting.rs:26-42 (`range_formatting`). -/
def rangeFormatting (src : Text) (root : Red) (tabSize : Nat) (r : Range) : Ans (Option DocEdit) :=
  (lspRangeToRowan src r).bindO fun ab => (formatRange (serviceOpts tabSize) src root ab).bind (rangeEdit src)

end Verif
