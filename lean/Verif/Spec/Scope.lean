import Verif.Model.Tree
/-!
Specification: names and index spaces of the WebAssembly text format, as relations on the syntax tree.
Independent of the symbol table: declarations and references are nodes of the tree.
-/
namespace Verif.Spec
open Kind

/-- Name spaces.  (Tags, elements and data segments have no declarations in the code's symbol table.) -/
inductive Space where
  | func | type | global | memory | table | local | label
  deriving DecidableEq, Repr

/-- The first identifier token of a node, as text. -/
def nameOf (n : Red) : Option Text := (n.token IDENT).map (·.text)

/-- The space a module-level node declares an entity in. -/
def fieldSpace : Kind → Option Space
  | MODULE_FIELD_FUNC | IMPORT_DESC_TYPE_USE => some .func
  | MODULE_FIELD_TYPE => some .type
  | MODULE_FIELD_GLOBAL | IMPORT_DESC_GLOBAL_TYPE => some .global
  | MODULE_FIELD_MEMORY | IMPORT_DESC_MEMORY_TYPE => some .memory
  | MODULE_FIELD_TABLE | IMPORT_DESC_TABLE_TYPE => some .table
  | _ => none

/-- Nodes that introduce a branch label. -/
def isLabel : Kind → Bool
  | BLOCK_BLOCK | BLOCK_LOOP | BLOCK_IF => true
  | _ => false

/-- The module-level entities of a module in document order, of all spaces. -/
def fields (m : Red) : List Red := m.descendants.filter fun n => (fieldSpace n.kind).isSome

/-- The index space of a module: its entities of one kind in document order, imports included. -/
def indexSpace (sp : Space) (m : Red) : List Red := m.descendants.filter fun n => fieldSpace n.kind == some sp

/-- What a group `(param ...)` or `(local ...)` declares: itself if it is named, otherwise one local per type. -/
def slots (grp : Red) : List Red :=
  if (nameOf grp).isSome then [grp] else grp.children.filter fun c => c.kind == VAL_TYPE

/-- The declared parameters and locals of a function, parameters first. -/
def localSlots (f : Red) : List Red :=
  let params := ((f.children.filter fun c => c.kind == TYPE_USE).take 1).flatMap fun tu =>
    tu.children.filter fun c => c.kind == PARAM
  let locals := f.children.filter fun c => c.kind == LOCAL
  params.flatMap slots ++ locals.flatMap slots

/-- The instructions whose operands are indices, and the space of these. -/
def instrSpace : List (Text × Space) :=
  [(t!"call", .func), (t!"ref.func", .func), (t!"return_call", .func),
   (t!"local.get", .local), (t!"local.set", .local), (t!"local.tee", .local),
   (t!"global.get", .global), (t!"global.set", .global),
   (t!"br", .label), (t!"br_if", .label), (t!"br_table", .label),
   (t!"table.get", .table), (t!"table.set", .table), (t!"table.size", .table), (t!"table.grow", .table),
   (t!"table.fill", .table), (t!"table.copy", .table), (t!"table.init", .table)]

/-- The space an operand or index node refers to. -/
inductive RefersTo : Red → Space → Prop where
  /-- An operand of an instruction that takes indices; of `table.init` only the first operand. -/
  | operand {x p : Red} {t : Tok} {sp : Space} : x.parent = some p → p.kind = PLAIN_INSTR →
      p.token INSTR_NAME = some t → (t.text, sp) ∈ instrSpace →
      (t.text = t!"table.init" → p.children.head? = some x) → RefersTo x sp
  /-- The function of a `start` field or of an export. -/
  | func {x p : Red} : x.parent = some p → p.kind = MODULE_FIELD_START ∨ p.kind = EXPORT_DESC_FUNC →
      p.children.find? (fun c => c.kind == INDEX) = some x → RefersTo x .func
  /-- The type of a type use. -/
  | type {x p : Red} : x.parent = some p → p.kind = TYPE_USE →
      p.children.find? (fun c => c.kind == INDEX) = some x → RefersTo x .type
  /-- The memory of an export or of a memory use. -/
  | memory {x p : Red} : x.parent = some p → p.kind = EXPORT_DESC_MEMORY ∨ p.kind = MEM_USE →
      p.children.find? (fun c => c.kind == INDEX) = some x → RefersTo x .memory
  /-- The table of an export. -/
  | table {x p : Red} : x.parent = some p → p.kind = EXPORT_DESC_TABLE →
      p.children.find? (fun c => c.kind == INDEX) = some x → RefersTo x .table

/-- The value of a decimal numeral, optionally signed with `+`; `none` if it is not one below 2^32. -/
def decimal (t : Text) : Option Nat :=
  let ds := if t.head? = some '+' then t.tail else t
  if ds ≠ [] ∧ (∀ c ∈ ds, '0' ≤ c ∧ c ≤ '9') then
    let v := ds.foldl (fun a c => 10 * a + (c.toNat - 48)) 0
    if v < 2 ^ 32 then some v else none
  else none

/-- What an operand or index node says: a name, or a number. -/
inductive Index where
  | name (t : Text)
  | num (n : Nat)
  deriving DecidableEq, Repr

/-- The index written in a node: its identifier, otherwise its number token read as a decimal. -/
def indexOf (x : Red) : Option Index :=
  match nameOf x with
  | some t => some (.name t)
  | none =>
    match x.childToks.find? fun t => t.kind == UNSIGNED_INT || t.kind == INT with
    | some t => (decimal t.text).map .num
    | none => none

/-- The kind of node the names of a space are local to. -/
def scopeKind : Space → Kind → Bool
  | .local => fun k => k == MODULE_FIELD_FUNC
  | .label => isLabel
  | _ => fun k => k == MODULE

/-- The scope of a reference: the nearest module, function or block around it. -/
def scopeOf (sp : Space) (x : Red) : Option Red := x.ancestors.find? fun a => scopeKind sp a.kind

end Verif.Spec
