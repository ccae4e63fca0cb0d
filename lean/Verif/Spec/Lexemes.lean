import Verif.Spec.Grammar
import Verif.Spec.Print
/-!
Specification: the lexical structure of a text, after the lexical grammar of the WebAssembly text format, as a relation
between a text and its tokens; and the constructs whose tokens the formatter does not keep.
-/
namespace Verif.Spec

/-- The text does not go on with a character that would prolong a word or a string: words and strings have to be
separated from each other. -/
def Apart (t : Text) : Prop := ∀ c r, t = c :: r → c ∉ idCharsWasm ∧ c ≠ '"'

/-- A string with its closing quote. -/
def ClosedString (t : Text) : Prop := ∃ b, StrBody b ∧ t = '"' :: (b ++ ['"'])

/-- `Lexes t ws`: the text consists of the tokens `ws` (parentheses, strings, and maximal words of identifier
characters), with blanks and complete comments before, between and after them. -/
inductive Lexes : Text → List Text → Prop
  | nil : Lexes [] []
  | blank (c : Char) {t : Text} {ws : List Text} : c ∈ blanks → Lexes t ws → Lexes (c :: t) ws
  | line (r : Text) {t : Text} {ws : List Text} : '\n' ∉ r → '\r' ∉ r → (t = [] ∨ NewLine t) → Lexes t ws →
      Lexes (';' :: ';' :: (r ++ t)) ws
  | block (c : Text) {t : Text} {ws : List Text} : BlockComment c → Lexes t ws → Lexes (c ++ t) ws
  | lpar {t : Text} {ws : List Text} : ¬ [';'] <+: t → Lexes t ws → Lexes ('(' :: t) (['('] :: ws)
  | rpar {t : Text} {ws : List Text} : Lexes t ws → Lexes (')' :: t) ([')'] :: ws)
  | str (s : Text) {t : Text} {ws : List Text} : ClosedString s → Apart t → Lexes t ws → Lexes (s ++ t) (s :: ws)
  | word (w : Text) {t : Text} {ws : List Text} : w ≠ [] → (∀ c ∈ w, c ∈ idCharsWasm) → Apart t → Lexes t ws →
      Lexes (w ++ t) (w :: ws)

/-- White space and comments. -/
def triviaKinds : List Kind := [.WHITESPACE, .LINE_COMMENT, .BLOCK_COMMENT]

/-- The tokens of a tree other than white space and comments, in order. -/
def lexemes (g : Green) : List Text := (g.toks.filter fun kt => !triviaKinds.contains kt.1).map (·.2)

/-- The last of the elements is an identifier, and there is no other one. -/
def TrailingLabel (l : List Green) : Prop := ∃ a t, l = a ++ [.tok .IDENT t] ∧ ∀ t', Green.tok .IDENT t' ∉ a

/-- A node whose tokens the formatter does not keep: limits with `shared`/`unshared` (dropped), a function with an
import after an import (dropped) or after an export (moved), a block with a label at its end only (moved). -/
def Lossy (k : Kind) (cs : List Green) : Prop :=
  match k with
  | .LIMITS => ∃ t, Green.tok .SHARE t ∈ cs
  | .MODULE_FIELD_FUNC => ∃ a i b, cs = a ++ .node .IMPORT i :: b ∧ ∃ g ∈ a, g.kind = .IMPORT ∨ g.kind = .EXPORT
  | .BLOCK_BLOCK => TrailingLabel (signif cs)
  | .BLOCK_LOOP => TrailingLabel (signif cs)
  | .BLOCK_IF => TrailingLabel (signif cs)
  | _ => False

/-- The line comment begins with the ignore directive. -/
def NamesDirective (dir c : Text) : Prop :=
  ∃ b rest, c = ';' :: ';' :: (b ++ dir ++ rest) ∧ ∀ x ∈ b, WhiteSpace x

/-- No node of the tree is of a kind the formatter loses tokens of, strings are closed, there is no error token, and no
comment is the ignore directive. -/
def Plain (dir : Text) (g : Green) : Prop :=
  (∀ kc ∈ g.nodes, ¬ Lossy kc.1 kc.2) ∧
  ∀ kt ∈ g.toks, kt.1 ≠ .ERROR ∧ (kt.1 = .STRING → ClosedString kt.2) ∧
    (kt.1 = .LINE_COMMENT → ¬ NamesDirective dir kt.2)

end Verif.Spec
