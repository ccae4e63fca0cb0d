import Verif.Model.Tree
/-!
The symbol table: `/repo/crates/service/src/binder.rs` and `/repo/crates/service/src/idx.rs`.
Interned identifiers (`InternIdent`) are modelled by their text: interning maps equal strings, and only these, to
equal handles.
-/
namespace Verif

/-- idx.rs:3-7 (`Idx`). -/
structure Idx where
  num : Option Nat
  name : Option Text
  deriving DecidableEq, Repr, Inhabited

/-- idx.rs:10-12 (`is_def`). -/
def Idx.isDef (i : Idx) : Bool := i.num.isSome

/-- idx.rs:14-20 (`is_ref`). -/
def Idx.isRef (i : Idx) : Bool := if i.name.isSome then i.num.isNone else i.num.isSome

/-- idx.rs:22-43 (`is_defined_by`).  Simplification: the two `debug_assert!`s are not part of the value; that they
hold wherever the code calls the function is `Verif.C08_asserts`. -/
def Idx.isDefinedBy (i o : Idx) : Bool :=
  match i.num, o.num with
  | some a, some b => a == b
  | _, _ =>
    match i.name, o.name with
    | some a, some b => a == b
    | _, _ => false

/-- binder.rs:618-636 (`SymbolItemKind`). -/
inductive SymKind where
  | module | func | param | local | call | localRef | type | typeUse | globalDef | globalRef
  | memoryDef | memoryRef | tableDef | tableRef | blockDef | blockRef
  deriving DecidableEq, Repr, Inhabited

/-- binder.rs:597-604 (`SymbolItem`).  `==` on `SymbolItem`s in the code compares key and kind only
(binder.rs:605-609); where the code uses it the model says so. -/
structure Sym where
  key : Key
  green : Green
  region : Key
  kind : SymKind
  idx : Idx
  deriving Repr, Inhabited

/-- binder.rs:605-609 (`PartialEq for SymbolItem`). -/
def Sym.same (a b : Sym) : Bool := a.key == b.key && a.kind == b.kind

/-- Decimal digits of a number, most significant first; `acc` is the value so far. -/
def digitsVal (acc : Nat) : Text → Option Nat
  | [] => some acc
  | c :: cs => if '0' ≤ c ∧ c ≤ '9' then digitsVal (acc * 10 + (c.toNat - '0'.toNat)) cs else none

/-- `str::parse::<u32>`: an optional `+` is dropped (core library; no lines in /repo). -/
def stripPlus : Text → Text
  | [] => []
  | c :: cs => if c = '+' then cs else c :: cs

/-- `str::parse::<u32>`: decimal digits, at least one, below 2^32 (core library; no lines in /repo). -/
def parseU32 (t : Text) : Option Nat :=
  if stripPlus t = [] then none
  else (digitsVal 0 (stripPlus t)).bind fun n => if n < 4294967296 then some n else none

/-- `rowan::ast::support::children`: the child nodes of a kind. -/
def Red.childrenOf (r : Red) (k : Kind) : List Red := r.children.filter fun c => c.kind == k

/-- `rowan::ast::support::child`: the first child node of a kind. -/
def Red.childOf (r : Red) (k : Kind) : Option Red := r.children.find? fun c => c.kind == k

/-- The text of the `IDENT` token of a node. -/
def Red.identText (r : Red) : Option Text := (r.token .IDENT).map (·.text)

/-- binder.rs:29-46 (`create_parent_based_symbol`). -/
def parentSymbol (n : Red) (id : Nat) (kind : SymKind) : Option Sym :=
  n.parent.map fun p => ⟨n.key, n.green, p.key, kind, ⟨some id, n.identText⟩⟩

/-- binder.rs:47-80 (`create_ref_symbol`): by name, or by the first number token if it parses. -/
def refSymbol (n : Red) (region : Key) (kind : SymKind) : Option Sym :=
  match n.identText with
  | some name => some ⟨n.key, n.green, region, kind, ⟨none, some name⟩⟩
  | none =>
    ((n.childToks.find? fun t => t.kind == .UNSIGNED_INT || t.kind == .INT).bind fun t => parseU32 t.text).map
      fun num => ⟨n.key, n.green, region, kind, ⟨some num, none⟩⟩

/-- binder.rs:81-100 (`create_import_desc_symbol`). -/
def importDescSymbol (n : Red) (id : Nat) (kind : SymKind) : Option Sym :=
  (n.parent.bind Red.parent).map fun m => ⟨n.key, n.green, m.key, kind, ⟨some id, n.identText⟩⟩

/-- `node.ancestors().find(kind)`. -/
def Red.enclosing (n : Red) (p : Kind → Bool) : Option Red := n.ancestors.find? fun a => p a.kind

/-- binder.rs:143-173, 174-204: the symbols of a list of `param` or `local` groups, numbered from `i`: one for a
named group, one for each type of an unnamed group. -/
def localSymbols (region : Key) (kind : SymKind) : Nat → List Red → List Sym × Nat
  | i, [] => ([], i)
  | i, g :: gs =>
    match g.identText with
    | some name =>
      let r := localSymbols region kind (i + 1) gs
      (⟨g.key, g.green, region, kind, ⟨some i, some name⟩⟩ :: r.1, r.2)
    | none =>
      let vs := g.childrenOf .VAL_TYPE
      let here := vs.zipIdx i |>.map fun (v, j) => (⟨v.key, v.green, region, kind, ⟨some j, none⟩⟩ : Sym)
      let r := localSymbols region kind (i + vs.length) gs
      (here ++ r.1, r.2)

/-- binder.rs:136-142: the groups of parameters of a function, those of its (first) type use. -/
def funcParams (n : Red) : List Red :=
  match n.childOf .TYPE_USE with
  | some tu => tu.childrenOf .PARAM
  | none => []

/-- binder.rs:136-204: the parameters and locals of a function. -/
def funcLocals (n : Red) : List Sym :=
  let r := localSymbols n.key .param 0 (funcParams n)
  r.1 ++ (localSymbols n.key .local r.2 (n.childrenOf .LOCAL)).1

/-- `node.kind() == SyntaxKind::MODULE` (binder.rs:236 and its copies). -/
def isModule : Kind → Bool := fun k => k == .MODULE
/-- The kinds of nodes that are branch targets (binder.rs:272-279, 348). -/
def isBlock : Kind → Bool
  | .BLOCK_BLOCK | .BLOCK_LOOP | .BLOCK_IF => true
  | _ => false

/-- binder.rs:229-232: the name of an instruction. -/
def Red.instrName (n : Red) : Option Text := (n.token .INSTR_NAME).map (·.text)

/-- binder.rs:359-372 and its copies (374-389, 411-443, 476-491): the reference made by the `INDEX` child of a node. -/
def indexRef (n : Red) (kind : SymKind) : Option Sym :=
  match n.enclosing isModule, n.childOf .INDEX with
  | some m, some i => refSymbol i m.key kind
  | _, _ => none

/-- How an instruction refers to something: by all its operands or by the first, to what, and the kind of node its
names are local to.  binder.rs:232-346, the names that `match` lists. -/
def instrRef (name : Text) : Option (SymKind × (Kind → Bool) × Bool) :=
  if name ∈ [t!"call", t!"ref.func", t!"return_call"] then some (.call, isModule, true)
  else if name ∈ [t!"local.get", t!"local.set", t!"local.tee"] then
    some (.localRef, (fun k => k == .MODULE_FIELD_FUNC), true)
  else if name ∈ [t!"global.get", t!"global.set"] then some (.globalRef, isModule, true)
  else if name ∈ [t!"br", t!"br_if", t!"br_table"] then some (.blockRef, isBlock, true)
  else if name ∈ [t!"table.get", t!"table.set", t!"table.size", t!"table.grow", t!"table.fill", t!"table.copy"] then
    some (.tableRef, isModule, true)
  else if name ∈ [t!"table.init"] then some (.tableRef, isModule, false)
  else none

/-- binder.rs:228-347: the references a plain instruction makes. -/
def instrRefs (n : Red) : List Sym :=
  match n.instrName.bind instrRef with
  | none => []
  | some (kind, scope, all) =>
    match n.enclosing scope with
    | none => []
    | some r =>
      if all then n.children.filterMap fun c => refSymbol c r.key kind
      else (n.children.head?.bind fun c => refSymbol c r.key kind).toList

/-- binder.rs:293-313: the blocks a branch can target by walking up from `region` through the symbols recorded so
far: the key of each block and its index with the number of levels.  `fuel` bounds the `while` loop.  The code has no
bound; a block starts after the block it is directly in, so that the offset of the region plus one, which the
caller passes, is never used up (`Verif.blockChain_eq`). -/
def blockChain (syms : List Sym) : Nat → Key → Nat → List (Key × Idx)
  | 0, _, _ => []
  | fuel + 1, region, levels =>
    match syms.find? fun s => s.kind == .blockDef && s.key == region with
    | none => []
    | some p => (p.key, ⟨some levels, p.idx.name⟩) :: blockChain syms fuel p.region (levels + 1)

/-- An entry of `SymbolTable.blocks`: reference, block, index of the block as seen from the reference. -/
structure BlockEntry where
  ref : Key
  def_ : Key
  idx : Idx
  deriving DecidableEq, Repr

/-- The state of the loop of `create_symbol_table` (binder.rs:103-105). -/
structure BindSt where
  id : Nat
  symbols : List Sym
  blocks : List BlockEntry
  deriving Repr

/-- binder.rs:228-347 for an instruction with its references: each reference is pushed, and for branches the
enclosing blocks are recorded. -/
def pushRefs (st : BindSt) : List Sym → BindSt
  | [] => st
  | s :: ss =>
    let syms := st.symbols ++ [s]
    let st := { st with symbols := syms }
    let st := if s.kind == .blockRef then
        { st with blocks := st.blocks ++ (blockChain syms (s.region.start + 1) s.region 0).map fun (k, i) => ⟨s.key, k, i⟩ }
      else st
    pushRefs st ss

/-- What a module field or import descriptor defines: binder.rs:126, 206, 217, 390, 401, 444, 452, 460, 468. -/
def fieldKind : Kind → Option SymKind
  | .MODULE_FIELD_FUNC | .IMPORT_DESC_TYPE_USE => some .func
  | .MODULE_FIELD_TYPE => some .type
  | .MODULE_FIELD_GLOBAL | .IMPORT_DESC_GLOBAL_TYPE => some .globalDef
  | .MODULE_FIELD_MEMORY | .IMPORT_DESC_MEMORY_TYPE => some .memoryDef
  | .MODULE_FIELD_TABLE | .IMPORT_DESC_TABLE_TYPE => some .tableDef
  | _ => none

/-- What the `INDEX` child of a node refers to: binder.rs:358, 374, 412, 428, 476. -/
def indexKind : Kind → Option SymKind
  | .MODULE_FIELD_START | .EXPORT_DESC_FUNC => some .call
  | .TYPE_USE => some .typeUse
  | .EXPORT_DESC_MEMORY | .MEM_USE => some .memoryRef
  | .EXPORT_DESC_TABLE => some .tableRef
  | _ => none

/-- Import descriptors are defined in the module two levels up, fields in their parent. -/
def isImportDesc : Kind → Bool
  | .IMPORT_DESC_TYPE_USE | .IMPORT_DESC_TABLE_TYPE | .IMPORT_DESC_MEMORY_TYPE | .IMPORT_DESC_GLOBAL_TYPE => true
  | _ => false

/-- binder.rs:106-494: the body of the loop for one node.  The arms of the `match` that differ only in a kind are
merged (`fieldKind`, `indexKind`, `instrRef`). -/
def bindNode (st : BindSt) (n : Red) : BindSt :=
  match n.kind with
  | .MODULE =>
    { st with
      id := 0
      symbols := st.symbols ++
        (n.parent.map fun p => (⟨n.key, n.green, p.key, .module, ⟨none, none⟩⟩ : Sym)).toList }
  | .PLAIN_INSTR => pushRefs st (instrRefs n)
  | .BLOCK_BLOCK | .BLOCK_IF | .BLOCK_LOOP =>
    { st with symbols := st.symbols ++ (parentSymbol n 0 .blockDef).toList }
  | k =>
    match fieldKind k with
    | some sk =>
      { st with
        id := st.id + 1
        symbols := st.symbols ++
          ((if isImportDesc k then importDescSymbol n st.id sk else parentSymbol n st.id sk).toList ++
            (if k == .MODULE_FIELD_FUNC then funcLocals n else [])) }
    | none =>
      match indexKind k with
      | some sk => { st with symbols := st.symbols ++ (indexRef n sk).toList }
      | none => st

/-- binder.rs:23-27 (`SymbolTable`). -/
structure SymbolTable where
  symbols : List Sym
  blocks : List BlockEntry
  deriving Repr

/-- binder.rs:28-496 (`create_symbol_table`). -/
def symbolTable (root : Red) : SymbolTable :=
  let st := root.descendants.foldl bindNode ⟨0, [], []⟩
  ⟨st.symbols, st.blocks⟩

/-- binder.rs:504-511: the kind of definition a reference of a kind resolves to. -/
def SymKind.defKind : SymKind → Option SymKind
  | .call => some .func
  | .typeUse => some .type
  | .globalRef => some .globalDef
  | .memoryRef => some .memoryDef
  | .tableRef => some .tableDef
  | _ => none

namespace SymbolTable

/-- The first symbol of a key: `symbols.iter().find(|symbol| symbol.key == key)`. -/
def byKey (t : SymbolTable) (key : Key) : Option Sym := t.symbols.find? fun s => s.key == key

/-- binder.rs:499-518 (`find_defs`). -/
def findDefs (t : SymbolTable) (key : Key) : Option (List Sym) :=
  (t.byKey key).bind fun r =>
    r.kind.defKind.map fun kind =>
      t.symbols.filter fun s => s.region == r.region && s.kind == kind && r.idx.isDefinedBy s.idx

/-- binder.rs:540-544 (`find_local_ref`). -/
def findLocalRef (t : SymbolTable) (key : Key) : Option Sym :=
  t.symbols.find? fun s => s.kind == .localRef && s.key == key

/-- binder.rs:520-528 (`find_param_def`). -/
def findParamDef (t : SymbolTable) (key : Key) : Option Sym :=
  (t.findLocalRef key).bind fun l =>
    t.symbols.find? fun s => s.region == l.region && s.kind == .param && l.idx.isDefinedBy s.idx

/-- binder.rs:530-538 (`find_param_or_local_def`). -/
def findParamOrLocalDef (t : SymbolTable) (key : Key) : Option Sym :=
  (t.findLocalRef key).bind fun l =>
    t.symbols.find? fun s =>
      s.region == l.region && (s.kind == .param || s.kind == .local) && l.idx.isDefinedBy s.idx

/-- binder.rs:555-559 (`find_block_ref`). -/
def findBlockRef (t : SymbolTable) (key : Key) : Option Sym :=
  t.symbols.find? fun s => s.kind == .blockRef && s.key == key

/-- binder.rs:546-553 (`find_block_def`). -/
def findBlockDef (t : SymbolTable) (key : Key) : Option Sym :=
  (t.findBlockRef key).bind fun r =>
    (t.blocks.find? fun b => key == b.ref && r.idx.isDefinedBy b.idx).bind fun b => t.byKey b.def_

/-- binder.rs:561-571 (`get_declared_fields`); the `debug_assert` on the kind of the node holds at its callers. -/
def declaredFields (t : SymbolTable) (key : Key) (kind : SymKind) : List Sym :=
  t.symbols.filter fun s => s.kind == kind && s.region == key

/-- binder.rs:573-582 (`get_declared_params_and_locals`). -/
def declaredParamsAndLocals (t : SymbolTable) (key : Key) : List Sym :=
  t.symbols.filter fun s => (s.kind == .param || s.kind == .local) && s.region == key

end SymbolTable

end Verif
