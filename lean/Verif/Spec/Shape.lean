import Verif.Spec.Resolve
/-!
Specification: how ranges of a document lie to each other.
-/
namespace Verif.Spec

/-- The range `r` lies in the range `r'`. -/
def LiesIn (r r' : Range) : Prop := ¬ PosLt r.start r'.start ∧ ¬ PosLt r'.stop r.stop

/-- The range `r` ends before the range `r'` starts, or where it starts. -/
def Before (r r' : Range) : Prop := ¬ PosLt r'.start r.stop

end Verif.Spec
