import Verif.Model.Nav
/-!
Requests about the shape of a document: `/repo/crates/service/src/features/selection_range.rs` and
`folding_range.rs`.
-/
namespace Verif

/-- `Iterator::filter_map` over a list, stopping at the first panic. -/
def Ans.filterMapL (f : α → Ans (Option β)) : List α → Ans (List β)
  | [] => .done []
  | a :: as => (f a).bind fun b => (filterMapL f as).bind fun bs => .done (b.toList ++ bs)

/-- `helpers::rowan_range_to_lsp_range(line_index, node.text_range())`. -/
def nodeRange (src : Text) (n : Red) : Ans Range := Ans.ofOption (rowanRangeToLsp src n.start n.stop)

/-- selection_range.rs:19-31, 35-42 (`get_parent_range`): the chain of ranges for a token, innermost first: the token,
its parent, and so on up to the root.  `SelectionRange` is a linked list through `parent`; here it is a list. -/
def selectionChain (src : Text) (t : Tok) : Ans (List Range) :=
  (Ans.ofOption (rowanRangeToLsp src t.off t.stop)).bind fun r =>
    match t.parent with
    | none => .done [r]
    | some p => (Ans.mapL (nodeRange src) p.ancestors).bind fun rs => .done (r :: rs)

/-- selection_range.rs:9-33 (`selection_range`).  The answer of the code is always `Some`. -/
def selectionRange (src : Text) (root : Red) (ps : List Pos) : Ans (List (List Range)) :=
  Ans.filterMapL (fun p => (findMeaningfulToken src root p).bindO fun t => (selectionChain src t).bind fun c => .done (some c)) ps

/-- folding_range.rs:17-31: the folding range of a node, `start_line`/`start_character` as `start`,
`end_line`/`end_character` as `stop`; the kind is always `Region`. -/
def nodeFold (src : Text) (n : Red) : Ans (Option Range) :=
  match (n.token .KEYWORD).orElse fun _ => n.token .L_PAREN with
  | none => .done none
  | some _ => (nodeRange src n).bind fun r => .done (if r.start.line == r.stop.line then none else some r)

/-- folding_range.rs:9-33 (`folding_range`).  The answer of the code is always `Some`. -/
def foldingRange (src : Text) (root : Red) : Ans (List Range) := Ans.filterMapL (nodeFold src) root.descendants

end Verif
