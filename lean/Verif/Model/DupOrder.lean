import Verif.Model.Check
import Verif.Model.Grammar
/-!
The order of the diagnostics for duplicated names: `/repo/crates/service/src/checker/dup_names.rs` goes through hash maps whose
keys hold the numbers that names were interned with.  `Model/Check.lean` (`checkDup`) has the same diagnostics in the order of
the document; here they come in the order of the maps.
-/
namespace Verif

/-- idx.rs:58-62 (`IdentsCtx::ident`, an interned query): the names interned so far; the number of a name is its place.  `salsa`
numbers interned values in the order they come and drops none. -/
abbrev Interner := List Text

namespace Interner

/-- `db.ident(name)`: a new name gets the next number. -/
def add (ns : Interner) (n : Text) : Interner := if ns.contains n then ns else ns ++ [n]

/-- The number of a name that is interned. -/
def id (ns : Interner) (n : Text) : Nat := ns.idxOf n

/-- `db.lookup_ident(id)`. -/
def lookup (ns : Interner) (i : Nat) : Text := ns.getD i []

/-- binder.rs:28-496 (`create_symbol_table`): the names of the symbols are interned in the order of the symbols. -/
def table (ns : Interner) (t : SymbolTable) : Interner :=
  t.symbols.foldl (fun ns s => match s.idx.name with | some n => ns.add n | none => ns) ns

end Interner

/-- The iteration orders of the two hash maps (`FxHashMap`, dup_names.rs:38, 83): from the keys in the order they were inserted
to the keys in the order of iteration.  The hash functions and the layout of the maps are not modelled. -/
structure MapOrder where
  scopes : List (Nat × Key) → List (Nat × Key)
  labels : List (Key × SymKind × Nat) → List (Key × SymKind × Nat)

/-- The keys of a map in the order of insertion (`map.entry(..)` in a fold over the symbols). -/
def keysOf [BEq κ] (key : Sym → Option κ) (l : List Sym) : List κ :=
  l.foldl (fun ks s => match key s with | some k => if ks.contains k then ks else ks ++ [k] | none => ks) []

/-- dup_names.rs:26-43: the key a symbol is filed under, its name and region. -/
def scopeKey (ns : Interner) (s : Sym) : Option (Nat × Key) :=
  if isNamedKind s.kind then s.idx.name.map fun n => (ns.id n, s.region) else none

/-- dup_names.rs:22-77. -/
def checkScopes (ord : MapOrder) (ns : Interner) (t : SymbolTable) (root : Red) : Ans (List RawDiag) :=
  (Ans.mapL (fun k =>
    let group := t.symbols.filter fun s => scopeKey ns s == some k
    if 1 < group.length then
      Ans.mapL (fun s => dupDiag root s (ns.lookup k.1) (group.filter fun o => !(o.same s))) group
    else .done []) (ord.scopes (keysOf (scopeKey ns) t.symbols))).bind fun l => .done l.flatten

/-- dup_names.rs:84-92: the key a block is filed under, the symbol (whose equality and hash are those of key and kind,
binder.rs:605-616) and its name. -/
def labelKey (ns : Interner) (s : Sym) : Option (Key × SymKind × Nat) :=
  if s.kind == .blockDef then s.idx.name.map fun n => (s.key, s.kind, ns.id n) else none

/-- dup_names.rs:93-131: what is collected for a block. -/
def labelFound (t : SymbolTable) (name : Text) (s : Sym) : List Sym :=
  t.outerNamesakes name (s.region.start + 1) s.region ++ t.innerNamesakes s name

/-- dup_names.rs:140 (`sort_by_key`, which is stable). -/
def sortRelated (d : RawDiag) : RawDiag := { d with related := d.related.mergeSort fun a b => decide (a.1 ≤ b.1) }

/-- dup_names.rs:137-160: the diagnostic for an entry of the map. -/
def labelDiags (ns : Interner) (t : SymbolTable) (root : Red) (k : Key × SymKind × Nat) : Ans (List RawDiag) :=
  match t.symbols.filter fun s => labelKey ns s == some k with
  | [] => .done []
  | s :: group =>
    let found := (s :: group).flatMap (labelFound t (ns.lookup k.2.2))
    if 1 < found.length then (dupDiag root s (ns.lookup k.2.2) found).bind fun d => .done [sortRelated d]
    else .done []

/-- dup_names.rs:79-160. -/
def checkLabels (ord : MapOrder) (ns : Interner) (t : SymbolTable) (root : Red) : Ans (List RawDiag) :=
  (Ans.mapL (labelDiags ns t root) (ord.labels (keysOf (labelKey ns) t.symbols))).bind fun l => .done l.flatten

/-- checker/mod.rs:11-56 (`check`) without the syntax errors, with byte offsets. -/
def checkRawWith (ord : MapOrder) (ns : Interner) (root : Red) : Ans (List RawDiag) :=
  let t := symbolTable root
  (Ans.mapL (checkNode t root) root.descendants).bind fun ds =>
    (checkScopes ord ns t root).bind fun a => (checkLabels ord ns t root).bind fun b =>
      .done (ds.flatten ++ checkUndef t ++ (a ++ b))

/-- checker/mod.rs:11-56 (`check`): the diagnostics of a document, in the order they are sent. -/
def diagnosticsWith (ord : MapOrder) (ns : Interner) (src : Text) (root : Red) (errs : List Err) : Ans (List Diag) :=
  (checkRawWith ord ns root).bind fun ds =>
    Ans.mapL (toDiag src) (errs.map (fun e => (⟨e.start, e.stop, .syn e.msg, []⟩ : RawDiag)) ++ ds)

/-- lib.rs:172-175 (`commit`) and server.rs:388-407 (the diagnostics are published after it): the symbol table of the text is made. -/
def Interner.commit (dbg : Bool) (ns : Interner) (src : Text) : Interner :=
  match parse dbg src with
  | .tree g _ _ => ns.table (symbolTable (Red.root g))
  | _ => ns

/-- diagnostics.rs:28-34 (`publish_diagnostics`): the diagnostics of a document after commits of documents (address and text), the
last one first, each followed by its diagnostics.  `none` when there is no such document or it cannot be parsed. -/
def publishedAfter (dbg : Bool) (ord : MapOrder) (commits : List (Text × Text)) (uri : Text) : Option (Ans (List Diag)) :=
  (commits.find? fun c => c.1 == uri).bind fun c =>
    match parse dbg c.2 with
    | .tree g errs _ => some (diagnosticsWith ord (commits.foldr (fun c ns => ns.commit dbg c.2) []) c.2 (Red.root g) errs)
    | _ => none

end Verif
