import Verif.Model.Check
/-!
Diagnostics up to their order.
-/
namespace Verif.Spec

/-- Lists that are related element by element, up to their order. -/
inductive UpTo (R : α → α → Prop) : List α → List α → Prop
  | nil : UpTo R [] []
  | cons {a b l m} : R a b → UpTo R l m → UpTo R (a :: l) (b :: m)
  | swap {a b l} : UpTo R (a :: b :: l) (b :: a :: l)
  | trans {l m n} : UpTo R l m → UpTo R m n → UpTo R l n

/-- The same place and message, and the same related places up to their order. -/
def SameDiag (a b : Diag) : Prop := a.range = b.range ∧ a.msg = b.msg ∧ a.related.Perm b.related

/-- The same diagnostics, up to their order. -/
def SameDiags : List Diag → List Diag → Prop := UpTo SameDiag

end Verif.Spec
