import Verif.Spec.Resolve
/-!
Specification: which declarations have the same name, independent of the symbol table and the checkers.
-/
namespace Verif.Spec
open Kind

/-- `x` declares something in the space `sp` of the scope `s`: a field or import in its module, a parameter or local
in its function. -/
inductive DeclaredIn (g : Green) (s : Red) : Space → Red → Prop where
  | field {x : Red} {sp : Space} : s ∈ (Red.root g).children → x ∈ s.descendants → fieldSpace x.kind = some sp →
      DeclaredIn g s sp x
  | slot {x : Red} : s ∈ (Red.root g).descendants → s.kind = MODULE_FIELD_FUNC → x ∈ localSlots s → DeclaredIn g s .local x

/-- `x` is directly in `s`: a field or import, other than a table, in its module; a parameter or local in its
function; a block in its parent. -/
inductive DirectlyIn (g : Green) (s : Red) : Red → Prop where
  | field {x : Red} {sp : Space} : s ∈ (Red.root g).children → x ∈ s.descendants → fieldSpace x.kind = some sp →
      sp ≠ .table → DirectlyIn g s x
  | slot {x : Red} : s ∈ (Red.root g).descendants → s.kind = MODULE_FIELD_FUNC → x ∈ localSlots s → DirectlyIn g s x
  | block {x : Red} : x ∈ (Red.root g).descendants → isLabel x.kind = true → x.parent = some s → DirectlyIn g s x

/-- The blocks directly around one another from a node outwards. -/
def nest (p : Red) : List Red := p.ancestors.takeWhile fun a => isLabel a.kind

/-- `y` is a block around the block `x`, each directly in the next, or anywhere inside it. -/
def Nested (g : Green) (x y : Red) : Prop :=
  isLabel y.kind = true ∧ ((∃ p, x.parent = some p ∧ y ∈ nest p) ∨ (y ∈ (Red.root g).descendants ∧ x ∈ y.ancestors ∧ y ≠ x))

/-- `x` is a branch operand, and only blocks are around its innermost block up to `d`. -/
def BranchUnder (g : Green) (d x : Red) : Prop :=
  x ∈ (Red.root g).descendants ∧ RefersTo x .label ∧ (indexOf x).isSome ∧ ∃ r, scopeOf .label x = some r ∧ d ∈ nest r

/-- Only blocks are around the innermost block of the branch operand `x` up to `d`. -/
def Directly (x d : Red) : Prop := ∃ r, scopeOf .label x = some r ∧ d ∈ nest r

/-- The block an index denotes among those directly around one another from `r` outwards. -/
def nearest (r : Red) : Index → Option Red
  | .num k => (nest r)[k]?
  | .name n => (nest r).find? fun b => nameOf b == some n

/-- `x` is not in the condition of an `if`. -/
def OutsideConditions (x : Red) : Prop := ∀ c ∈ x.ancestors, ∀ a, c.parent = some a → inCondition c a = false

/-- The nodes whose names the code changes along with that of the block or branch operand `x`. -/
inductive EditedWith (g : Green) (x : Red) : Red → Prop where
  /-- `x` itself -/
  | self : EditedWith g x x
  /-- for a block directly in a function, the parameters, locals and uses of them in the function -/
  | besideBlock {s y : Red} {sp : Space} : isLabel x.kind = true → x.parent = some s → sp ≠ .label → Home g s sp y →
      EditedWith g x y
  /-- for a branch directly in a function, the same -/
  | besideBranch {s y : Red} {sp : Space} : RefersTo x .label → scopeOf .label x = some s → sp ≠ .label → Home g s sp y →
      EditedWith g x y
  /-- for a block, the operands of all branches directly inside -/
  | operand {y : Red} : isLabel x.kind = true → BranchUnder g x y → EditedWith g x y
  /-- for a branch, all blocks directly around it -/
  | block {r y : Red} : RefersTo x .label → scopeOf .label x = some r → y ∈ nest r → EditedWith g x y
  /-- for a branch, the operands of all branches directly inside the block it is about -/
  | alike {r y d : Red} {i : Index} : RefersTo x .label → scopeOf .label x = some r → indexOf x = some i →
      nearest r i = some d → BranchUnder g d y → EditedWith g x y

end Verif.Spec
