import Verif.Spec.Lexemes
/-!
Specification: a text shows tokens and comments in order, and the places from which the formatter drops comments.
-/
namespace Verif.Spec

/-- Characters of the layout only: blanks, tabs and line breaks. -/
def IsLayout (w : Text) : Prop := ∀ c ∈ w, c ∈ [' ', '\t', '\n', '\r']

/-- How a token or comment may be shown: a comment with at most one blank added inside its delimiters when comments are
formatted (`fc`), everything else as it is. -/
def ShownAs (fc : Bool) (kt : Kind × Text) (m : Text) : Prop :=
  match kt.1, fc with
  | .LINE_COMMENT, true => LineFormatted kt.2 m
  | .BLOCK_COMMENT, true => BlockFormatted kt.2 m
  | _, _ => m = kt.2

/-- The text shows the tokens and comments in this order, with nothing but layout before, between and after them. -/
inductive Carries (fc : Bool) : List (Kind × Text) → Text → Prop
  | nil {w : Text} : IsLayout w → Carries fc [] w
  | cons {kt : Kind × Text} {l : List (Kind × Text)} {w m out : Text} : IsLayout w → ShownAs fc kt m → Carries fc l out →
      Carries fc (kt :: l) (w ++ m ++ out)

/-- The tokens and comments of a tree, in order. -/
def shownToks (g : Green) : List (Kind × Text) := g.toks.filter fun kt => kt.1 != .WHITESPACE

/-- A comment. -/
def IsComment : Green → Prop
  | .tok k _ => k = .LINE_COMMENT ∨ k = .BLOCK_COMMENT
  | .node _ _ => False

/-- A comment that is the first thing in a node but for white space and other comments. -/
def LeadingComment (cs : List Green) : Prop :=
  ∃ a c b, cs = a ++ c :: b ∧ (∀ g ∈ a, isBlank g = true) ∧ IsComment c

/-- A comment between the last parameter and the first result. -/
def InnerComment (cs : List Green) : Prop :=
  ∃ a p x c y r b, cs = a ++ Green.node .PARAM p :: (x ++ c :: (y ++ Green.node .RESULT r :: b)) ∧
    (∀ g ∈ x ++ y, isBlank g = true) ∧ IsComment c

/-- A node without a parenthesis of its own of which the formatter drops a comment: one at the start of the `then` part of an
`if` or of a type use, and one between the parameters and the results of a type use. -/
def DropsComment (k : Kind) (cs : List Green) : Prop :=
  (∀ t, Green.tok .L_PAREN t ∉ cs) ∧
    ((k = .BLOCK_IF_THEN ∨ k = .TYPE_USE) ∧ LeadingComment cs ∨ k = .TYPE_USE ∧ InnerComment cs)

/-- No node is one of which the formatter drops a comment. -/
def KeepsComments (g : Green) : Prop := ∀ kc ∈ g.nodes, ¬ DropsComment kc.1 kc.2

end Verif.Spec
