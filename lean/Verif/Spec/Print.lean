import Verif.Model.Format
import Verif.Spec.Chars
/-!
Specification for the formatter: what `tiny_pretty` may print for a document, and what formatting a comment may
do to it.
-/
namespace Verif

mutual
/-- The document contains no panic. -/
def Doc.fine : Doc → Prop
  | .crash => False
  | .nest _ d => d.fine
  | .list ds => fineL ds
  | _ => True
/-- None of the documents contains a panic. -/
def fineL : List Doc → Prop
  | [] => True
  | d :: ds => d.fine ∧ fineL ds
end

end Verif

namespace Verif.Spec

/-- A line break of the layout (`LineBreak::Lf`, `LineBreak::Crlf`). -/
def IsLineBreak (lb : Text) : Prop := lb = ['\n'] ∨ lb = ['\r', '\n']

/-- Indentation: blanks or tabs. -/
def IsIndent (t : Text) : Prop := ∀ c ∈ t, c = ' ' ∨ c = '\t'

mutual
/-- `Prints lb d out`: laying the document out with the line break `lb` may give the text `out`.  This is the trusted
reading of `tiny_pretty` (its source is not available offline) and leaves the layout open: texts are printed as
they are, an empty line is a line break, a hard line is a line break and some indentation, a soft line is one or
the other of a blank and a hard line.  How much indentation, and when a soft line breaks, is left open, so that what
is proved of all `out` holds for every width, indentation and tab setting.  A panic prints nothing. -/
def Prints (lb : Text) : Doc → Text → Prop
  | .nil, out => out = []
  | .text t, out => out = t
  | .hardLine, out => ∃ ind, IsIndent ind ∧ out = lb ++ ind
  | .softLine, out => out = [' '] ∨ ∃ ind, IsIndent ind ∧ out = lb ++ ind
  | .emptyLine, out => out = lb
  | .nest _ d, out => Prints lb d out
  | .list ds, out => PrintsL lb ds out
  | .crash, _ => False
/-- The documents one after the other. -/
def PrintsL (lb : Text) : List Doc → Text → Prop
  | [], out => out = []
  | d :: ds, out => ∃ a b, out = a ++ b ∧ Prints lb d a ∧ PrintsL lb ds b
end

/-- A blank or a tab. -/
def IsTab (c : Char) : Prop := c = ' ' ∨ c = '\t'

/-- No blank or one. -/
def OneBlank (b : Text) : Prop := b = [] ∨ b = [' ']

/-- A formatted line comment: the delimiter, at most one added blank, and the content as it was; the content, if there
is any, begins with a blank. -/
def LineFormatted (t r : Text) : Prop :=
  ∃ c b, t = ';' :: ';' :: c ∧ r = ';' :: ';' :: (b ++ c) ∧ OneBlank b ∧
    (b ++ c = [] ∨ ∃ x y, b ++ c = x :: y ∧ IsTab x)

/-- A formatted block comment: the delimiters, at most one blank added on each side, and the content as it was; the
content, if there is any, begins and ends with a blank. -/
def BlockFormatted (t r : Text) : Prop :=
  ∃ c b b', t = '(' :: ';' :: (c ++ [';', ')']) ∧ r = '(' :: ';' :: (b ++ c ++ b' ++ [';', ')']) ∧
    OneBlank b ∧ OneBlank b' ∧
    (b ++ c ++ b' = [] ∨ (∃ x y, b ++ c ++ b' = x :: y ∧ IsTab x) ∧ ∃ x y, b ++ c ++ b' = y ++ [x] ∧ IsTab x)

/-- `r` is `t` with its line breaks (`\n` and `\r\n`) written as `lb`; a line break at the very end is dropped. -/
inductive Relined (lb : Text) : Text → Text → Prop
  | nil : Relined lb [] []
  | endLf : Relined lb ['\n'] []
  | endCrlf : Relined lb ['\r', '\n'] []
  | char (c : Char) (t r : Text) : c ≠ '\n' → ¬ ['\r', '\n'] <+: c :: t → Relined lb t r →
      Relined lb (c :: t) (c :: r)
  | lf (t r : Text) : t ≠ [] → Relined lb t r → Relined lb ('\n' :: t) (lb ++ r)
  | crlf (t r : Text) : t ≠ [] → Relined lb t r → Relined lb ('\r' :: '\n' :: t) (lb ++ r)

/-- White space in the sense of Unicode. -/
def WhiteSpace (c : Char) : Prop :=
  (9 ≤ c.toNat ∧ c.toNat ≤ 13) ∨ c.toNat ∈ [0x20, 0x85, 0xA0, 0x1680, 0x2028, 0x2029, 0x202F, 0x205F, 0x3000] ∨
    (0x2000 ≤ c.toNat ∧ c.toNat ≤ 0x200A)

/-- The comment is the ignore directive: `;;`, white space, the directive (which does not itself begin with white
space), and then nothing or a blank and anything. -/
def DirectiveComment (dir c : Text) : Prop :=
  ∃ b rest, c = ';' :: ';' :: (b ++ dir ++ rest) ∧ (∀ x ∈ b, WhiteSpace x) ∧
    (∃ h r, dir = h :: r ∧ ¬ WhiteSpace h) ∧ (rest = [] ∨ ∃ h r, rest = h :: r ∧ h ∈ [' ', '\t', '\n', '\r', '\x0C'])

/-- The siblings `before` an element end with an ignore directive and one element (the white space that ends the
comment's line). -/
def Ignored (dir : Text) (before : List Green) : Prop :=
  ∃ a c w, before = a ++ [.tok .LINE_COMMENT c, w] ∧ DirectiveComment dir c

end Verif.Spec
