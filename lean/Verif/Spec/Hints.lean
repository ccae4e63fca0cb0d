import Verif.Spec.Calls
import Verif.Spec.Typing
import Verif.Spec.Shape
/-!
Specification of the inlay hints: behind a reference to a local or global its type, behind a named function its name.
-/
namespace Verif.Spec
open Kind

/-- The position of an offset. -/
def IsPos (src : Text) (off : Nat) (p : Pos) : Prop := ∃ u v, src = u ++ v ∧ bytes u = off ∧ p = posAfter u

/-- The bytes from `a` to `b` are in the part of the text asked for. -/
def Inside (ab : Nat × Nat) (a b : Nat) : Prop := ab.1 ≤ a ∧ b ≤ ab.2

/-- The type of a parameter, local or global. -/
def HasType (sp : Space) (d : Red) (ty : ValType) : Prop :=
  (sp = .local ∧ declaredType d = some ty) ∨ (sp = .global ∧ globalTypeOf d = some ty)

/-- The hint says, behind the reference `x`, that it has the type. -/
structure TypeHint (src : Text) (ab : Nat × Nat) (x : Red) (ty : ValType) (h : Hint) : Prop where
  inside : Inside ab x.start x.stop
  position : IsPos src x.stop h.position
  label : (h.label, ty) ∈ valTypes

/-- The start of the last part of a node: in a function, of its closing parenthesis. -/
def lastStart (n : Red) : Option Nat :=
  n.els.getLast?.map fun e => match e with
    | .node c => c.start
    | .tok t => t.off

/-- The hint says, behind the function `d`, that it has the name. -/
structure FuncHint (src : Text) (ab : Nat × Nat) (d : Red) (nm : Text) (h : Hint) : Prop where
  inside : ∃ a, lastStart d = some a ∧ Inside ab a d.stop
  name : nameOf d = some nm
  position : IsPos src d.stop h.position
  label : h.label = t!"(func " ++ nm ++ t!")"

/-- The hint tells the type of what the reference before it resolves to, or the name of the function before it. -/
def Truthful (g : Green) (src : Text) (h : Hint) : Prop :=
  (∃ x sp d ty, x ∈ (Red.root g).descendants ∧ RefersTo x sp ∧ Resolves x d ∧ HasType sp d ty ∧ IsPos src x.stop h.position ∧
    (h.label, ty) ∈ valTypes) ∨
  ∃ m k d nm, IsFunc g m k d ∧ nameOf d = some nm ∧ IsPos src d.stop h.position ∧ h.label = t!"(func " ++ nm ++ t!")"

/-- A position is in a range. -/
def PosWithin (r : Range) (p : Pos) : Prop := ¬ PosLt p r.start ∧ ¬ PosLt r.stop p

end Verif.Spec
