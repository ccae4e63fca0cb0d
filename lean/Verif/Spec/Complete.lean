import Verif.Spec.Resolve
import Verif.Spec.Typing
/-!
Specification of completion at an index: where indices are expected, and what is to be offered there.
-/
namespace Verif.Spec
open Kind

/-- The token that is being typed: the cursor is in it or at its end. -/
structure BeingTyped (root : Red) (off : Nat) (t : Tok) : Prop where
  mem : t ∈ root.tokens
  here : t.off < off ∧ off ≤ t.off + bytes t.text

/-- `x` is the place of an index of the space: where references are looked up (`RefersTo`), the global of an export, the
table of an element segment, or one of its functions. -/
inductive Expects : Red → Space → Prop where
  | ref {x : Red} {sp : Space} : RefersTo x sp → Expects x sp
  | global {x p : Red} : x.parent = some p → p.kind = EXPORT_DESC_GLOBAL → x.kind = INDEX → Expects x .global
  | table {x p : Red} : x.parent = some p → p.kind = TABLE_USE → x.kind = INDEX → Expects x .table
  | elem {x p : Red} : x.parent = some p → p.kind = ELEM_LIST ∨ p.kind = ELEM → x.kind = INDEX → Expects x .func

/-- What is to be offered for numbered declarations, as label and inserted text.  After a `$` the names are offered, and
inserted behind the `$`; otherwise every declaration is, by its name, or by its number if it has none. -/
def numbered (dollar : Bool) (l : List (Red × Nat)) : List (Text × Text) :=
  if dollar then l.filterMap fun p => (nameOf p.1).map fun n => (n, n.drop 1)
  else l.map fun p => ((nameOf p.1).getD (Nat.toDigits 10 p.2), (nameOf p.1).getD (Nat.toDigits 10 p.2))

/-- What is to be offered for declarations in index order. -/
def choices (dollar : Bool) (ds : List Red) : List (Text × Text) := numbered dollar ds.zipIdx

/-- The entities of a space in a module, numbered among its entities of all spaces. -/
def fieldsOf (sp : Space) (m : Red) : List (Red × Nat) := (fields m).zipIdx.filter fun p => fieldSpace p.1.kind == some sp

/-- The declarations that are offered: after a `$` only those with a name. -/
def offered (dollar : Bool) (ds : List Red) : List Red := ds.filter fun d => !dollar || (nameOf d).isSome

/-- The name of a value type. -/
def typeName (ty : ValType) : Option Text := (valTypes.find? fun p => p.2 == ty).map (·.1)

end Verif.Spec
