import Verif.Spec.SameOutline
/-!
Lists of diagnostics of two documents with the same parts.
-/
namespace Verif.Spec

/-- The diagnostics say the same at corresponding places, and their related places correspond one by one. -/
def SameReportFull (g g' : Green) (src src' : Text) (d d' : Diag) : Prop :=
  SameReport g g' src src' d d' ∧ d'.related.length = d.related.length ∧
    ∀ (i : Nat) r r', d.related[i]? = some r → d'.related[i]? = some r' → SameRange g g' src src' r r'

/-- As many diagnostics, the same one by one. -/
def SameReports (g g' : Green) (src src' : Text) (ds ds' : List Diag) : Prop :=
  ds'.length = ds.length ∧ ∀ (i : Nat) d d', ds[i]? = some d → ds'[i]? = some d' → SameReportFull g g' src src' d d'

end Verif.Spec
