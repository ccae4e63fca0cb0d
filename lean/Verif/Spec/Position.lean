import Verif.Model.LineIndex
/-!
Specification: positions in a text, independent of the line index.  An offset is given by the text before it.
-/
namespace Verif.Spec

/-- The part of a text after its last line break. -/
def lastLine (pre : Text) : Text := (pre.reverse.takeWhile fun c => c != '\n').reverse

/-- The position at the end of `pre`: the number of line breaks in it and the length in bytes of its last line. -/
def posAfter (pre : Text) : Pos := ⟨pre.count '\n', bytes (lastLine pre)⟩

/-- Document order of positions. -/
def PosLt (p q : Pos) : Prop := p.line < q.line ∨ (p.line = q.line ∧ p.character < q.character)

/-- Number of UTF-16 code units of a text. -/
def utf16Len (t : Text) : Nat := (t.map fun c => if c.val < 0x10000 then 1 else 2).sum

/-- The position at the end of `pre` as the protocol defines it without a negotiated encoding: columns in UTF-16
code units. -/
def lspPosAfter (pre : Text) : Pos := ⟨pre.count '\n', utf16Len (lastLine pre)⟩

end Verif.Spec
