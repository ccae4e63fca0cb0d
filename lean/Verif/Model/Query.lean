import Verif.Model.Salsa
import Verif.Model.Grammar
import Verif.Model.Check
/-!
The query groups of the service: `/repo/crates/service/src/files.rs`, `binder.rs:16-28`, `types_analyzer.rs:25-137`.
-/
namespace Verif

mutual
/-- `GreenNode: PartialEq` of `rowan` (structural). -/
def Green.same : Green → Green → Bool
  | .tok k t, .tok k' t' => k == k' && t == t'
  | .node k cs, .node k' cs' => k == k' && Green.sameL cs cs'
  | _, _ => false
/-- The children. -/
def Green.sameL : List Green → List Green → Bool
  | [], [] => true
  | g :: gs, g' :: gs' => g.same g' && Green.sameL gs gs'
  | _, _ => false
end

/-- The memoized queries with their keys. -/
inductive Query where
  /-- files.rs:17-19 -/
  | lineIndex (uri : Text)
  /-- files.rs:21-23 -/
  | parserResult (uri : Text)
  /-- files.rs:25-26 -/
  | root (uri : Text)
  /-- binder.rs:18-20 -/
  | symbolTable (uri : Text)
  /-- types_analyzer.rs:27-28 -/
  | extractType (g : Green)
  /-- types_analyzer.rs:29-30 -/
  | extractGlobalType (g : Green)
  /-- types_analyzer.rs:31-32 -/
  | extractSig (g : Green)
  /-- types_analyzer.rs:34-35 -/
  | getFuncSig (uri : Text) (s : Sym)
  /-- types_analyzer.rs:36-37 -/
  | renderFuncHeader (uri : Text) (s : Sym)

/-- The values of the queries. -/
inductive QVal where
  | panicked
  /-- `LineIndex` is made of the line starts, the places of the characters of more than one byte, and the length: that is the
  size of each character, and whether it ends a line. -/
  | lines (ls : List (Nat × Bool))
  | parsed (g : Green) (ds : List Diag)
  | root (g : Green)
  | table (t : SymbolTable)
  | type (t : Option ValType)
  | sig (s : FuncSig)
  | funcSig (s : Option FuncSig)
  | header (t : Text)

/-- types_analyzer.rs:251-263 (`SymbolItemWithGreenEq`): equality and hash of a key with a symbol. -/
def Sym.sameGreen (a b : Sym) : Bool := a.same b && a.green.same b.green

/-- The derived equality of the keys. -/
def Query.same : Query → Query → Bool
  | .lineIndex u, .lineIndex u' => u == u'
  | .parserResult u, .parserResult u' => u == u'
  | .root u, .root u' => u == u'
  | .symbolTable u, .symbolTable u' => u == u'
  | .extractType g, .extractType g' => g.same g'
  | .extractGlobalType g, .extractGlobalType g' => g.same g'
  | .extractSig g, .extractSig g' => g.same g'
  | .getFuncSig u s, .getFuncSig u' s' => u == u' && s.sameGreen s'
  | .renderFuncHeader u s, .renderFuncHeader u' s' => u == u' && s.sameGreen s'
  | _, _ => false

/-- `Vec<SymbolItem>: PartialEq`. -/
def sameSyms : List Sym → List Sym → Bool
  | [], [] => true
  | a :: as, b :: bs => a.same b && sameSyms as bs
  | _, _ => false

/-- binder.rs:23-27 (`SymbolTable: PartialEq`, derived): the symbols are compared with binder.rs:605-609, which looks at key
and kind only. -/
def SymbolTable.same (a b : SymbolTable) : Bool := sameSyms a.symbols b.symbols && a.blocks == b.blocks

/-- The equality of the values of the queries, by which `salsa` decides that a value has not changed. -/
def QVal.equal : QVal → QVal → Bool
  | .panicked, .panicked => true
  | .lines a, .lines b => a == b
  | .parsed g ds, .parsed g' ds' => g.same g' && ds == ds'
  | .root g, .root g' => g.same g'
  | .table t, .table t' => t.same t'
  | .type t, .type t' => t == t'
  | .sig s, .sig s' => s == s'
  | .funcSig s, .funcSig s' => s == s'
  | .header t, .header t' => t == t'
  | _, _ => false

/-- A body of a query or a handler of the service. -/
abbrev QProg := Prog Query QVal

/-- `db.source(uri)`, which panics without a text. -/
def withSource (uri : Text) (k : Text → QProg QVal) : QProg QVal :=
  .source uri fun | some t => k t | none => .done .panicked

/-- `LineIndex::new` (line-index 0.1), as far as it is remembered. -/
def lineIndexOf (src : Text) : List (Nat × Bool) := src.map fun c => (c.utf8Size, c == '\n')

/-- files.rs:29-31 (`get_line_index`). -/
def lineIndexBody (uri : Text) : QProg QVal := withSource uri fun src => .done (.lines (lineIndexOf src))

/-- files.rs:38-53: the syntax errors as diagnostics. -/
def syntaxDiags (src : Text) (errs : List Err) : Ans (List Diag) :=
  Ans.mapL (fun e => toDiag src ⟨e.start, e.stop, .syn e.msg, []⟩) errs

/-- files.rs:33-55 (`parse`): the value for a text.  The code converts positions with the line index it has read; here they
are computed from the text. -/
def parsedOf (dbg : Bool) (src : Text) : QVal :=
  match parse dbg src with
  | .tree g errs _ =>
    match syntaxDiags src errs with
    | .done ds => .parsed g ds
    | .panic => .panicked
  | _ => .panicked

/-- files.rs:33-55 (`parse`). -/
def parserResultBody (dbg : Bool) (uri : Text) : QProg QVal :=
  withSource uri fun src => .read (.lineIndex uri) fun
    | .lines _ => .done (parsedOf dbg src)
    | _ => .done .panicked

/-- files.rs:57-59 (`root`). -/
def rootBody (uri : Text) : QProg QVal :=
  .read (.parserResult uri) fun
    | .parsed g _ => .done (.root g)
    | _ => .done .panicked

/-- binder.rs:28-496 (`create_symbol_table`): of the database it reads the tree (binder.rs:102) and interns the names. -/
def symbolTableBody (uri : Text) : QProg QVal :=
  .read (.root uri) fun
    | .root g => .done (.table (Verif.symbolTable (Red.root g)))
    | _ => .done .panicked

/-- types_analyzer.rs:51-58 (`extract_global_type`). -/
def extractGlobalTypeBody (g : Green) : QProg QVal :=
  match g.children.find? fun c => c.isNode && c.kind == .GLOBAL_TYPE with
  | none => .done (.type none)
  | some t => .read (.extractType t) .done

/-- types_analyzer.rs:60-78 (`extract_sig`), the value. -/
def sigVal (g : Green) : QVal :=
  match Verif.extractSig g with
  | .done s => .sig s
  | .panic => .panicked

/-- The signature of a type use or function type as that of a function. -/
def askSig (g : Green) : QProg QVal :=
  .read (.extractSig g) fun
    | .sig s => .done (.funcSig (some s))
    | _ => .done .panicked

/-- types_analyzer.rs:101-107: the type that the function's type use names. -/
def namedType (t : SymbolTable) (n : Red) : Option Green :=
  (((n.childOf .TYPE_USE).bind fun u => u.childOf .INDEX).bind fun i => (t.findDefs i.key).bind List.head?).bind fun d => funcTypeOf d.green

/-- types_analyzer.rs:80-110 (`get_func_sig`). -/
def getFuncSigBody (uri : Text) (s : Sym) : QProg QVal :=
  match s.green.children.find? fun c => c.isNode && c.kind == .TYPE_USE with
  | none => .done (.funcSig none)
  | some tu =>
    if hasInline tu then askSig tu
    else
      .read (.root uri) fun
        | .root g =>
          match s.key.toNode (Red.root g) with
          | none => .done .panicked
          | some n =>
            .read (.symbolTable uri) fun
              | .table t =>
                match namedType t n with
                | none => .done (.funcSig none)
                | some ft => askSig ft
              | _ => .done .panicked
        | _ => .done .panicked

/-- types_analyzer.rs:112-137 (`render_func_header`). -/
def renderFuncHeaderBody (uri : Text) (s : Sym) : QProg QVal :=
  .read (.getFuncSig uri s) fun
    | .funcSig sig => .done (.header (headerText (if s.kind == .func then s.idx.name else none) sig))
    | _ => .done .panicked

/-- The bodies of the queries. -/
def queryBody (dbg : Bool) : Query → QProg QVal
  | .lineIndex uri => lineIndexBody uri
  | .parserResult uri => parserResultBody dbg uri
  | .root uri => rootBody uri
  | .symbolTable uri => symbolTableBody uri
  | .extractType g => .done (.type (Verif.extractType g))
  | .extractGlobalType g => extractGlobalTypeBody g
  | .extractSig g => .done (sigVal g)
  | .getFuncSig uri s => getFuncSigBody uri s
  | .renderFuncHeader uri s => renderFuncHeaderBody uri s

/-- The query groups `Files`, `SymbolTables`, `TypesAnalyzer` of the service. -/
def queries (dbg : Bool) : Group Query QVal := ⟨Query.same, QVal.equal, queryBody dbg⟩

/-- The storage of the service (`LanguageService::storage`). -/
abbrev Service := Db Query QVal

/-- lib.rs:172-175 (`commit`). -/
def Service.commit (s : Service) (uri text : Text) : Service := Db.set s uri text

/-- A request handler runs: it reads texts and queries, and answers. -/
def Service.handle {R : Type} (dbg : Bool) (s : Service) (p : QProg R) : Option (Service × R) :=
  (runWith (fetch (queries dbg) 8) s p).map fun o => (o.1, o.2.1)

/-- What happens to a service: a document is committed, or a request handled. -/
inductive Event (R : Type) where
  | commit (uri text : Text)
  | handle (p : QProg R)

/-- A service after a sequence of events (the answers are dropped). -/
def Service.after {R : Type} (dbg : Bool) (s : Service) : List (Event R) → Option Service
  | [] => some s
  | .commit uri text :: es => Service.after dbg (s.commit uri text) es
  | .handle p :: es => (Service.handle dbg s p).bind fun o => Service.after dbg o.1 es

end Verif
