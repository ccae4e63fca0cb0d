import Verif.Spec.Position
/-!
Specification: applying text edits, all of which refer to positions of the unedited text (as the Language Server
Protocol has it).
-/
namespace Verif.Spec

/-- An edit: from, to, replacement. -/
abbrev Edit := Pos × Pos × Text

/-- Applying edits to the text `rest` that follows `before`.  `hide` is the end of the edit whose old text is being
skipped.  Where an edit starts, its replacement is written and its old text skipped. -/
def applyFrom (es : List Edit) (before : Text) : Text → Option Pos → Text
  | [], hide => if hide.isSome && hide ≠ some (posAfter before) then []
      else ((es.find? fun e => e.1 == posAfter before).map (·.2.2)).getD []
  | c :: rest, hide =>
    if hide.isSome && hide ≠ some (posAfter before) then applyFrom es (before ++ [c]) rest hide
    else
      match es.find? fun e => e.1 == posAfter before with
      | none => c :: applyFrom es (before ++ [c]) rest none
      | some (p, q, t) =>
        if p = q then t ++ c :: applyFrom es (before ++ [c]) rest none
        else t ++ applyFrom es (before ++ [c]) rest (some q)

/-- The text after edits. -/
def applyEdits (es : List Edit) (src : Text) : Text := applyFrom es [] src none

end Verif.Spec
