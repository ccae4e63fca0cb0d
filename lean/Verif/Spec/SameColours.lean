import Verif.Spec.Highlight
/-!
What a client paints, apart from comments.
-/
namespace Verif.Spec

/-- The tokens of an answer in order, each with its length and with the name the legend has for its type; comments are left
out. -/
def colours (legend : List Text) (data : List SemTok) : List (Nat × Option Text) :=
  (data.map fun s => (s.length, legend[s.type]?)).filter fun p => p.2 != some t!"comment"

end Verif.Spec
