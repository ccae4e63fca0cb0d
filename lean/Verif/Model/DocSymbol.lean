import Verif.Model.Outline
/-!
Document symbols: `/repo/crates/service/src/features/document_symbol.rs`.
-/
namespace Verif

/-- `lsp_types::SymbolKind`, the three the code uses. -/
inductive DocKind where
  | module | function | variable
  deriving DecidableEq, Repr

/-- `lsp_types::DocumentSymbol`.  `children: None` is the empty list: the code never makes `Some` of an empty one. -/
inductive DocSym where
  | mk (name : Text) (kind : DocKind) (range selection : Range) (children : List DocSym)

namespace DocSym
/-- The fields of the structure. -/
def name : DocSym → Text | mk n _ _ _ _ => n
/-- The fields of the structure. -/
def kind : DocSym → DocKind | mk _ k _ _ _ => k
/-- The fields of the structure. -/
def range : DocSym → Range | mk _ _ r _ _ => r
/-- The fields of the structure. -/
def selection : DocSym → Range | mk _ _ _ s _ => s
/-- The fields of the structure. -/
def children : DocSym → List DocSym | mk _ _ _ _ c => c
/-- `children.reverse()`. -/
def flip : DocSym → DocSym | mk n k r s c => mk n k r s c.reverse
/-- document_symbol.rs:157-160: pushing a child. -/
def push (d : DocSym) (c : DocSym) : DocSym := mk d.name d.kind d.range d.selection (d.children ++ [c])
end DocSym

/-- document_symbol.rs:25-141: the symbols that are shown, and as what. -/
def SymKind.docKind : SymKind → Option DocKind
  | .module => some .module
  | .func => some .function
  | .local | .type | .globalDef | .memoryDef | .tableDef => some .variable
  | _ => none

/-- document_symbol.rs:49-54 and its copies (78-83, 110-115): the name, otherwise the number. -/
def symbolName (s : Sym) : Text :=
  match s.idx.name, s.idx.num with
  | some n, _ => n
  | none, some k => Nat.toDigits 10 k
  | none, none => []

/-- document_symbol.rs:25-142: the entry of the map for a symbol, without children. -/
def docEntry (src : Text) (root : Red) (s : Sym) : Ans (Option (Key × DocSym)) :=
  match s.kind.docKind with
  | none => .done none
  | some .module =>
    (Ans.ofOption (rowanRangeToLsp src s.key.start s.key.stop)).bind fun r =>
      .done (some (s.key, .mk t!"module" .module r r []))
  | some k =>
    (Ans.ofOption (rowanRangeToLsp src s.key.start s.key.stop)).bind fun r =>
      (Ans.ofOption (s.key.toNode root)).bind fun n =>
        match n.token .IDENT with
        | none => .done (some (s.key, .mk (symbolName s) k r r []))
        | some t => (Ans.ofOption (rowanRangeToLsp src t.off t.stop)).bind fun sel =>
            .done (some (s.key, .mk (symbolName s) k r sel []))

/-- `FxHashMap<SymbolItemKey, DocumentSymbol>`, by its entries.  The order of the entries stands for the order of
iteration, about which nothing is said. -/
abbrev DocMap := List (Key × DocSym)

/-- `HashMap::insert`. -/
def DocMap.insert (m : DocMap) (e : Key × DocSym) : DocMap := m.filter (fun x => !(x.1 == e.1)) ++ [e]
/-- `HashMap::get`. -/
def DocMap.get (m : DocMap) (k : Key) : Option DocSym := (m.find? fun x => x.1 == k).map (·.2)
/-- `HashMap::remove`: what is left. -/
def DocMap.erase (m : DocMap) (k : Key) : DocMap := m.filter fun x => !(x.1 == k)
/-- `HashMap::get_mut` and a change of the value. -/
def DocMap.update (m : DocMap) (k : Key) (f : DocSym → DocSym) : DocMap :=
  m.map fun x => if x.1 == k then (x.1, f x.2) else x

/-- document_symbol.rs:149-162: one step of the loop.  The entry is removed whether or not the parent is found. -/
def placeSymbol (m : DocMap) (s : Sym) : DocMap :=
  match m.get s.key, (m.erase s.key).get s.region with
  | some d, some _ => (m.erase s.key).update s.region fun p => p.push d.flip
  | _, _ => m.erase s.key

/-- document_symbol.rs:15-175 (`document_symbol`).  The order of the answer is that of the iteration over a hash map, so
nothing is said about the order of the outermost list; the theorems speak of it up to permutation. -/
def documentSymbols (src : Text) (root : Red) : Ans (List DocSym) :=
  let syms := (symbolTable root).symbols
  (Ans.filterMapL (docEntry src root) syms).bind fun es =>
    let m := es.foldl DocMap.insert []
    let m := ((syms.filter fun s => s.region.kind != .ROOT).reverse).foldl placeSymbol m
    .done ((m.filterMap fun x => if x.2.children.isEmpty then none else some x.2.flip).reverse)

end Verif
