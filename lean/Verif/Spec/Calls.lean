import Verif.Spec.Resolve
import Verif.Model.Calls
/-!
Specification of the call hierarchy: which functions a document declares, which calls it has, and what an item says about
a function.  Stated on the syntax tree, without the symbol table.
-/
namespace Verif.Spec
open Kind

/-- `d` is the `k`-th field of the module `m`, and declares or imports a function. -/
structure IsFunc (g : Green) (m : Red) (k : Nat) (d : Red) : Prop where
  module : m ∈ (Red.root g).children
  field : (fields m)[k]? = some d
  func : fieldSpace d.kind = some .func

/-- The reference `x` is to the function `d`, the `k`-th field of the module `m`: `x` is looked up in `m` and names `d`
or has its number.  (The number is the one the service gives to the function, its position among all fields of the module,
see `C12_false`.) -/
def IsCallOf (x m : Red) (k : Nat) (d : Red) : Prop :=
  RefersTo x .func ∧ scopeOf .func x = some m ∧
    ((∃ n, indexOf x = some (.name n) ∧ nameOf d = some n) ∨ indexOf x = some (.num k))

/-- `p` is an instruction in the function `f` with an operand that refers to the function `d`. -/
def CallSite (f p m : Red) (k : Nat) (d : Red) : Prop :=
  p ∈ f.descendants ∧ p.kind = PLAIN_INSTR ∧ ∃ x ∈ p.children, IsCallOf x m k d

/-- The item shown for a function. -/
structure IsItem (src : Text) (k : Nat) (d : Red) (i : CallItem) : Prop where
  name : i.name = (nameOf d).getD (Nat.toDigits 10 k)
  range : IsRange src (d.start, d.stop) i.range
  selection : IsRange src (nameRange d) i.selection

end Verif.Spec
