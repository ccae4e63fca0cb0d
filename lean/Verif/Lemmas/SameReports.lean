import Verif.Lemmas.Reports
import Verif.Lemmas.DiagOk
import Verif.Lemmas.Literals
import Verif.Props.C16
import Verif.Props.C17
/-!
The diagnostics of documents that differ in white space and comments only.
-/
namespace Verif
namespace Stripped
open Spec

variable {g g' : Green}

/-- What is known of a document without syntax errors and its diagnostics. -/
structure Checked (g : Green) (src : Text) (ds : List Diag) : Prop where
  out : ∃ dbg d, parse dbg src = .tree g [] d ∧ g.text ++ d = src
  derived : DerivedL g.children
  diags : diagnostics src (Red.root g) [] = .done ds

theorem Checked.solid {src : Text} {ds : List Diag} (h : Checked g src ds) : Solid g := by
  obtain ⟨_, _, h, _⟩ := h.out
  exact parse_solid h

end Stripped
end Verif
