import Verif.Model.Binder
import Verif.Model.Token
/-!
Navigation requests: `/repo/crates/service/src/features/definition.rs`, `references.rs`, `rename.rs`.
The functions take the text and the (positioned) syntax tree of the document, which the code gets from its database;
the document URI in requests and responses is left out.  `Ans.panic` is a panic of the code.
-/
namespace Verif

namespace Ans

/-- Sequencing: a panic stops the request. -/
def bind (a : Ans α) (f : α → Ans β) : Ans β :=
  match a with
  | done a => f a
  | panic => panic

/-- A value that the code unwraps. -/
def ofOption : Option α → Ans α
  | some a => done a
  | none => panic

/-- Mapping over a list, stopping at the first panic. -/
def mapL (f : α → Ans β) : List α → Ans (List β)
  | [] => done []
  | a :: as => (f a).bind fun b => (mapL f as).bind fun bs => done (b :: bs)

/-- `Option::?` in a request: nothing found is the answer `none`. -/
def bindO (a : Ans (Option α)) (f : α → Ans (Option β)) : Ans (Option β) :=
  a.bind fun
    | some a => f a
    | none => done none

end Ans

/-- definition.rs:172-175 and references.rs:394-397: the identifier token of a node, otherwise its keyword token,
otherwise the node: start and end. -/
def symbolRange (n : Red) : Nat × Nat :=
  match n.token .IDENT with
  | some t => (t.off, t.stop)
  | none =>
    match n.token .KEYWORD with
    | some t => (t.off, t.stop)
    | none => (n.start, n.stop)

/-- definition.rs:165-184 and references.rs:387-402 (`create_location_by_symbol`). -/
def locationOf (src : Text) (root : Red) (s : Sym) : Ans Range :=
  (Ans.ofOption (s.key.toNode root)).bind fun n =>
    Ans.ofOption (rowanRangeToLsp src (symbolRange n).1 (symbolRange n).2)

/-- `lsp_types::GotoDefinitionResponse`, the two forms the code uses. -/
inductive DefResp (α : Type) where
  | scalar (a : α)
  | array (as : List α)
  deriving Repr

/-- The locations of a response. -/
def DefResp.toList : DefResp α → List α
  | scalar a => [a]
  | array as => as

/-- The locations of an answer; no answer has none. -/
def locsOf (o : Option (DefResp α)) : List α := o.elim [] DefResp.toList

/-- definition.rs:41-71: the symbols go-to-definition answers with for the reference of a key. -/
def SymbolTable.definitions (t : SymbolTable) (key : Key) : Option (DefResp Sym) :=
  match t.findParamOrLocalDef key with
  | some s => some (.scalar s)
  | none =>
    match t.findDefs key with
    | some ss => some (.array ss)
    | none => (t.findBlockDef key).map .scalar

/-- Locations for the symbols of a response. -/
def locate (src : Text) (root : Red) : DefResp Sym → Ans (DefResp Range)
  | .scalar s => (locationOf src root s).bind fun l => .done (.scalar l)
  | .array ss => (Ans.mapL (locationOf src root) ss).bind fun ls => .done (.array ls)

/-- definition.rs:34: operands and indices are the nodes that can be references. -/
def isRefNode (k : Kind) : Bool := k == .OPERAND || k == .INDEX

/-- definition.rs:16-72 (`goto_definition`). -/
def gotoDefinition (src : Text) (root : Red) (pos : Pos) : Ans (Option (DefResp Range)) :=
  (findMeaningfulToken src root pos).bindO fun token =>
    match token.parent with
    | none => .done none
    | some parent =>
      if isRefNode parent.kind then
        match (symbolTable root).definitions parent.key with
        | none => .done none
        | some r => (locate src root r).bind fun l => .done (some l)
      else .done none

/-- definition.rs:106-116: the type definitions for the definitions of a reference: for every function, the
definitions for the index of its type use. -/
def typeDefs (t : SymbolTable) (root : Red) : List Sym → Ans (List Sym)
  | [] => .done []
  | s :: ss =>
    (Ans.ofOption (s.key.toNode root)).bind fun n =>
      (typeDefs t root ss).bind fun rest =>
        .done ((((n.childOf .TYPE_USE).bind fun tu => (tu.childOf .INDEX).bind fun i => t.findDefs i.key).getD []) ++ rest)

/-- definition.rs:75-124 (`goto_type_definition`). -/
def gotoTypeDefinition (src : Text) (root : Red) (pos : Pos) : Ans (Option (DefResp Range)) :=
  (findMeaningfulToken src root pos).bindO fun token =>
    match token.parent with
    | none => .done none
    | some parent =>
      if isRefNode parent.kind then
        match parent.parent with
        | none => .done none
        | some grand =>
          if grand.kind == .PLAIN_INSTR then
            match (symbolTable root).findDefs parent.key with
            | none => .done none
            | some ss =>
              (typeDefs (symbolTable root) root ss).bind fun ts =>
                (locate src root (.array ts)).bind fun l => .done (some l)
          else .done none
      else .done none

/-- definition.rs:129-162 (`goto_declaration`). -/
def gotoDeclaration (src : Text) (root : Red) (pos : Pos) : Ans (Option (DefResp Range)) :=
  (findMeaningfulToken src root pos).bindO fun token =>
    match token.parent with
    | none => .done none
    | some parent =>
      if parent.kind == .OPERAND then
        match (symbolTable root).findDefs parent.key with
        | none => .done none
        | some ss => (locate src root (.array ss)).bind fun l => .done (some l)
      else .done none

/-- references.rs:20-31: the kinds of tokens references can be asked for. -/
def isRefToken : Kind → Bool
  | .IDENT | .INT | .UNSIGNED_INT | .NUM_TYPE | .VEC_TYPE | .REF_TYPE | .KEYWORD => true
  | _ => false

/-- The kind of reference that goes with a kind of definition: the arms of references.rs:42-336. -/
def SymKind.refKind : SymKind → Option SymKind
  | .func => some .call
  | .param | .local => some .localRef
  | .type => some .typeUse
  | .globalDef => some .globalRef
  | .memoryDef => some .memoryRef
  | .tableDef => some .tableRef
  | _ => none

/-- references.rs:358-385 (`get_block_refs`), the symbols. -/
def SymbolTable.blockRefs (t : SymbolTable) (incl : Bool) (d : Sym) : List Sym :=
  (if incl then [d] else []) ++
    (t.blocks.filter fun b => b.def_ == d.key).filterMap fun b => t.byKey b.ref

/-- references.rs:37-354: the symbols find-references answers with for the symbol of a key.  The arms that differ only
in kinds are merged (`SymKind.refKind`, `SymKind.defKind`). -/
def SymbolTable.references (t : SymbolTable) (incl : Bool) (key : Key) : Option (List Sym) :=
  (t.byKey key).bind fun cur =>
    match cur.kind with
    | .module => none
    | .blockDef => some (t.blockRefs incl cur)
    | .blockRef => (t.findBlockDef key).map (t.blockRefs incl)
    | .localRef =>
      (t.findParamOrLocalDef cur.key).map fun d =>
        t.symbols.filter fun s =>
          ((s.kind == .param || s.kind == .local) && incl && cur.idx.isDefinedBy s.idx && s.region == cur.region) ||
            (s.kind == .localRef && s.idx.isDefinedBy d.idx && s.region == cur.region)
    | k =>
      match k.refKind with
      | some rk =>
        some (t.symbols.filter fun s =>
          (s.kind == k && incl && cur.idx == s.idx && s.region == cur.region) ||
            (s.kind == rk && s.idx.isDefinedBy cur.idx && s.region == cur.region))
      | none =>
        match k.defKind with
        | some dk =>
          (t.findDefs cur.key).map fun ds =>
            t.symbols.filter fun s =>
              (s.kind == dk && incl && cur.idx.isDefinedBy s.idx && s.region == cur.region) ||
                (s.kind == k && (ds.any fun d => s.idx.isDefinedBy d.idx) && s.region == cur.region)
        | none => none

/-- references.rs:15-355 (`find_references`). -/
def findReferences (src : Text) (root : Red) (pos : Pos) (incl : Bool) : Ans (Option (List Range)) :=
  (findMeaningfulToken src root pos).bindO fun token =>
    if isRefToken token.kind then
      match token.parent with
      | none => .done none
      | some parent =>
        match (symbolTable root).references incl parent.key with
        | none => .done none
        | some ss => (Ans.mapL (locationOf src root) ss).bind fun ls => .done (some ls)
    else .done none

/-- rename.rs:22-33 (`prepare_rename`). -/
def prepareRename (src : Text) (root : Red) (pos : Pos) : Ans (Option Range) :=
  (findMeaningfulToken src root pos).bindO fun token =>
    if token.kind == .IDENT then
      (Ans.ofOption (rowanRangeToLsp src token.off token.stop)).bind fun r => .done (some r)
    else .done none

/-- rename.rs:37-41: the names rename accepts; `is_id_char` is the parser's (`isIdChar`). -/
def validName : Text → Bool
  | '$' :: rest => !rest.isEmpty && rest.all isIdChar
  | _ => false

/-- rename.rs:77-114: whether the symbol `sym` is renamed when `symbol`, found for the identifier token `oldName`, is. -/
def SymbolTable.isRenamed (t : SymbolTable) (symbol : Sym) (oldName : Text) (sym : Sym) : Bool :=
  match sym.kind with
  | .module => false
  | .blockDef => symbol.same sym || t.blocks.any fun b => b.ref == symbol.key && b.def_ == sym.key
  | .blockRef =>
    symbol.same sym || (t.blocks.any fun b => b.ref == sym.key && b.def_ == symbol.key) ||
      match t.findBlockDef symbol.key with
      | some d => t.blocks.any fun b => b.ref == sym.key && b.def_ == d.key
      | none => false
  | _ => symbol.region == sym.region && symbol.idx.name == some oldName

/-- `lsp_types::TextEdit`. -/
structure TextEdit where
  range : Range
  newText : Text
  deriving DecidableEq, Repr

/-- Answers of rename: refused because of the name, refused because of the position, the edits (`none`: no edit). -/
inductive RenameResp where
  | badName
  | cantRename
  | edits (es : Option (List TextEdit))
  deriving Repr

/-- rename.rs:115: the identifier tokens of the renamed symbols. -/
def renamedTokens (root : Red) : List Sym → Ans (List Tok)
  | [] => .done []
  | s :: ss =>
    (Ans.ofOption (s.key.toNode root)).bind fun n =>
      (renamedTokens root ss).bind fun rest => .done ((n.token .IDENT).toList ++ rest)

/-- rename.rs:62-128 (`rename_impl`). -/
def renameImpl (src : Text) (root : Red) (newName : Text) (token : Tok) : Ans (Option (List TextEdit)) :=
  match token.parent with
  | none => .done none
  | some parent =>
    let t := symbolTable root
    match t.byKey parent.key with
    | none => .done none
    | some symbol =>
      (renamedTokens root (t.symbols.filter (t.isRenamed symbol token.text))).bind fun toks =>
        (Ans.mapL (fun tk : Tok => (Ans.ofOption (rowanRangeToLsp src tk.off tk.stop)).bind fun r =>
          .done (⟨r, newName⟩ : TextEdit)) toks).bind fun es => .done (some es)

/-- rename.rs:36-59 (`rename`). -/
def rename (src : Text) (root : Red) (pos : Pos) (newName : Text) : Ans RenameResp :=
  if validName newName then
    (findMeaningfulToken src root pos).bind fun
      | some token =>
        if token.kind == .IDENT then (renameImpl src root newName token).bind fun es => .done (.edits es)
        else .done .cantRename
      | none => .done .cantRename
  else .done .badName

end Verif
