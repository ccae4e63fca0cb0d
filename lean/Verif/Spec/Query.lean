import Verif.Model.Query
/-!
Specification: what the queries of the service have to answer, as functions of the current texts of the documents, and what a
history of events leaves as these texts.
-/
namespace Verif.Spec

/-- The last text of each document. -/
def latest {R : Type} : List (Event R) → Text → Option Text
  | [], _ => none
  | .handle _ :: es, u => latest es u
  | .commit uri text :: es, u =>
    match latest es u with
    | some t => some t
    | none => if uri = u then some text else none

/-- The tree of a document. -/
def treeOf (dbg : Bool) (σ : Text → Option Text) (uri : Text) : Option Green :=
  match σ uri with
  | none => none
  | some src =>
    match parsedOf dbg src with
    | .parsed g _ => some g
    | _ => none

/-- The signature of a function symbol of a document. -/
def sigAnswer (dbg : Bool) (σ : Text → Option Text) (uri : Text) (s : Sym) : QVal :=
  match s.green.children.find? fun c => c.isNode && c.kind == .TYPE_USE with
  | none => .funcSig none
  | some tu =>
    if hasInline tu then
      match extractSig tu with
      | .done sig => .funcSig (some sig)
      | .panic => .panicked
    else
      match treeOf dbg σ uri with
      | none => .panicked
      | some g =>
        match getFuncSig (symbolTable (Red.root g)) (Red.root g) s with
        | .done sig => .funcSig sig
        | .panic => .panicked

/-- The value of a query for the current texts, without any memory. -/
def answer (dbg : Bool) (σ : Text → Option Text) : Query → QVal
  | .lineIndex uri => match σ uri with | some src => .lines (lineIndexOf src) | none => .panicked
  | .parserResult uri => match σ uri with | some src => parsedOf dbg src | none => .panicked
  | .root uri => match treeOf dbg σ uri with | some g => .root g | none => .panicked
  | .symbolTable uri => match treeOf dbg σ uri with | some g => .table (Verif.symbolTable (Red.root g)) | none => .panicked
  | .extractType g => .type (Verif.extractType g)
  | .extractGlobalType g => .type (Verif.extractGlobalType g)
  | .extractSig g => match Verif.extractSig g with | .done sig => .sig sig | .panic => .panicked
  | .getFuncSig uri s => sigAnswer dbg σ uri s
  | .renderFuncHeader uri s =>
    match sigAnswer dbg σ uri s with
    | .funcSig sig => .header (headerText s.idx.name sig)
    | _ => .panicked

/-- A symbol of a function, of some document. -/
def FuncSymbol (s : Sym) : Prop :=
  s.kind = .func ∧ ∃ dbg src g errs dropped, parse dbg src = .tree g errs dropped ∧ s ∈ (symbolTable (Red.root g)).symbols

/-- The queries handlers ask: signatures and headers are asked of function symbols only (call_hierarchy.rs:58, 84, 156, 211;
completion.rs:467; hover.rs:240; typeck.rs:245, 303). -/
def Proper : Query → Prop
  | .getFuncSig _ s => FuncSymbol s
  | .renderFuncHeader _ s => FuncSymbol s
  | _ => True

/-- A handler on given texts, with the queries answered from them. -/
def handled {R : Type} (dbg : Bool) (σ : Text → Option Text) : QProg R → R
  | .done r => r
  | .source uri k => handled dbg σ (k (σ uri))
  | .read q k => handled dbg σ (k (answer dbg σ q))

/-- Whether a handler asks proper queries only. -/
def Asks {R : Type} (dbg : Bool) (σ : Text → Option Text) : QProg R → Prop
  | .done _ => True
  | .source uri k => Asks dbg σ (k (σ uri))
  | .read q k => Proper q ∧ Asks dbg σ (k (answer dbg σ q))

/-- Whether all handlers of a history do, each at its time; `past` are the events before. -/
def AsksAll {R : Type} (dbg : Bool) (past : List (Event R)) : List (Event R) → Prop
  | [] => True
  | .commit uri text :: es => AsksAll dbg (past ++ [.commit uri text]) es
  | .handle p :: es => Asks dbg (latest past) p ∧ AsksAll dbg (past ++ [.handle p]) es

end Verif.Spec
