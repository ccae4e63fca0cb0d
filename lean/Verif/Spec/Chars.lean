import Verif.Model.Syntax
/-!
Specification: character classes and token shapes, written from the WebAssembly text-format
documentation, independently of the parser model.
-/
namespace Verif.Spec

/-- The identifier characters of the WebAssembly text format: ASCII letters, digits and this
punctuation: ``!#$%&'*+-./:<=>?@\^_`|~``. -/
def idCharsWasm : List Char :=
  t!"0123456789ABCDEFGHIJKLMNOPQRSTUVWXYZabcdefghijklmnopqrstuvwxyz!#$%&'*+-./:<=>?@\\^_`|~"

/-- The identifier characters this language server documents (`is_id_char`): those of the standard
without the apostrophe. -/
def idChars : List Char :=
  t!"0123456789ABCDEFGHIJKLMNOPQRSTUVWXYZabcdefghijklmnopqrstuvwxyz!#$%&*+-./:<=>?@\\^_`|~"

/-- Lower-case ASCII letters. -/
def lowers : List Char := t!"abcdefghijklmnopqrstuvwxyz"
/-- Decimal digits. -/
def digits : List Char := t!"0123456789"
/-- Hexadecimal digits. -/
def hexDigits : List Char := t!"0123456789abcdefABCDEF"
/-- Blank characters of the text format. -/
def blanks : List Char := [' ', '\t', '\n', '\r']

/-- A word: a lower-case letter followed by identifier characters. -/
def IsWord (t : Text) : Prop := ∃ h r, t = h :: r ∧ h ∈ lowers ∧ ∀ c ∈ r, c ∈ idChars

/-- An identifier: `$` and at least one identifier character. -/
def IsIdent (t : Text) : Prop := ∃ r, t = '$' :: r ∧ r ≠ [] ∧ ∀ c ∈ r, c ∈ idChars

/-- Digits of a base with `_` separators: starts with a digit, does not end with `_`. -/
def IsDigits (ds : List Char) (t : Text) : Prop :=
  ∃ h r, t = h :: r ∧ h ∈ ds ∧ (∀ c ∈ r, c ∈ ds ∨ c = '_') ∧ t.getLast? ≠ some '_'

/-- An unsigned integer literal: decimal, or `0x` and hexadecimal. -/
def IsUnsigned (t : Text) : Prop :=
  IsDigits digits t ∨ ∃ r, t = '0' :: 'x' :: r ∧ IsDigits hexDigits r

/-- An integer literal with optional sign. -/
def IsInt (t : Text) : Prop :=
  IsUnsigned t ∨ ∃ r, (t = '+' :: r ∨ t = '-' :: r) ∧ IsUnsigned r

mutual
/-- Nested block comments: `(;`, then characters and complete nested comments, then `;)`. -/
inductive BlockComment : Text → Prop
  | mk (t : Text) : CommentRest t → BlockComment ('(' :: ';' :: t)
/-- What follows the opening `(;` of a block comment, closing `;)` included. -/
inductive CommentRest : Text → Prop
  | close : CommentRest [';', ')']
  | char (c : Char) (t : Text) : ¬ ['(', ';'] <+: c :: t → ¬ [';', ')'] <+: c :: t →
      CommentRest t → CommentRest (c :: t)
  | nested (n t : Text) : BlockComment n → CommentRest t → CommentRest (n ++ t)
end

/-- A block comment is opened at the start of the text, and nothing of the text closes it. -/
def Unclosed (t : Text) : Prop := ['(', ';'] <+: t ∧ ∀ c, BlockComment c → ¬ c <+: t

/-- A block comment that is not closed, and after its opening another one. -/
def TwiceUnclosed (t : Text) : Prop :=
  ∃ a b c, t = a ++ '(' :: ';' :: (b ++ c) ∧ Unclosed ('(' :: ';' :: (b ++ c)) ∧ Unclosed c

/-- The inside of a string literal: no unescaped quote, backslash or line break; a backslash takes the next
character with it, and `\\u` takes a braced hexadecimal number. -/
inductive StrBody : Text → Prop
  | nil : StrBody []
  | char (c : Char) (r : Text) : c ∉ ['"', '\\', '\n', '\r'] → StrBody r → StrBody (c :: r)
  | esc (c : Char) (r : Text) : c ≠ 'u' → StrBody r → StrBody ('\\' :: c :: r)
  | uni (h r : Text) : (∀ c ∈ h, c ∈ hexDigits) → StrBody r →
      StrBody ('\\' :: 'u' :: '{' :: (h ++ '}' :: r))

/-- A string literal; it may lack the closing quote (the parser accepts one that ends at a line break
or at the end of the text). -/
def IsString (t : Text) : Prop := ∃ b, StrBody b ∧ (t = '"' :: (b ++ ['"']) ∨ t = '"' :: b)

/-- A run of digits and underscores that starts with a digit. -/
def IsRun (ds : List Char) (t : Text) : Prop :=
  ∃ h r, t = h :: r ∧ h ∈ ds ∧ ∀ c ∈ r, c ∈ ds ∨ c = '_'

/-- An optional sign. -/
def IsSign (t : Text) : Prop := t = [] ∨ t = ['+'] ∨ t = ['-']

/-- An optional part. -/
def Opt (p : Text → Prop) (t : Text) : Prop := t = [] ∨ p t

/-- Digits with optional fraction and exponent. -/
def IsFloatNum (ds : List Char) (e : List Char) (t : Text) : Prop :=
  ∃ i f x, t = i ++ f ++ x ∧ IsRun ds i ∧
    Opt (fun f => ∃ r, f = '.' :: r ∧ Opt (IsRun ds) r) f ∧
    Opt (fun x => ∃ c g r, x = c :: (g ++ r) ∧ c ∈ e ∧ IsSign g ∧ IsRun digits r) x

/-- A floating-point literal: optional sign, then `inf`, `nan`, `nan:0x…`, a decimal or a hexadecimal
number. Every underscore is followed by a digit. -/
def IsFloat (t : Text) : Prop :=
  (∃ g m, t = g ++ m ∧ IsSign g ∧
    (m = t!"inf" ∨ m = t!"nan" ∨ (∃ r, m = t!"nan:0x" ++ r ∧ IsRun hexDigits r) ∨
      IsFloatNum digits ['e', 'E'] m ∨
      ∃ r, m = '0' :: 'x' :: r ∧ IsFloatNum hexDigits ['p', 'P'] r)) ∧
  ∀ a b, t = a ++ '_' :: b → ∃ d r, b = d :: r ∧ d ∈ hexDigits

/-- The text contains a `\\u` escape that breaks off at an opening parenthesis: `\\u(`, or `\\u{`, hexadecimal
digits and `(`. -/
def BrokenEscape (t : Text) : Prop :=
  ∃ a h b, t = a ++ '\\' :: 'u' :: (h ++ '(' :: b) ∧
    (h = [] ∨ ∃ hs, h = '{' :: hs ∧ ∀ c ∈ hs, c ∈ hexDigits)

/-- The text after an opening quote begins with a complete string body: one that is ended by a quote, a line
break or the end of the text, and has only complete escapes. -/
def Readable (b : Text) : Prop :=
  ∃ body r, b = body ++ r ∧ StrBody body ∧
    (r = [] ∨ ['"'] <+: r ∨ ['\n'] <+: r ∨ ['\r', '\n'] <+: r)

/-- The text contains a quote that does not open a readable string, and a broken escape after it. -/
def BadQuote (t : Text) : Prop := ∃ a b, t = a ++ '"' :: b ∧ ¬ Readable b ∧ BrokenEscape b

/-- All keywords of the grammar. -/
def keywords : List Text :=
  [t!"module", t!"func", t!"param", t!"result", t!"type", t!"import", t!"export", t!"local",
   t!"global", t!"memory", t!"table", t!"start", t!"data", t!"elem", t!"item", t!"offset",
   t!"declare", t!"mut", t!"block", t!"loop", t!"if", t!"then", t!"else", t!"end"]

/-- The shape of a token's text, by kind.  Error tokens are only required to be non-empty; node kinds never
label a token. -/
def TokenShape : Kind → Text → Prop
  | .WHITESPACE, t => t ≠ [] ∧ ∀ c ∈ t, c ∈ blanks
  | .LINE_COMMENT, t => ∃ r, t = ';' :: ';' :: r ∧ '\n' ∉ r ∧ '\r' ∉ r
  | .BLOCK_COMMENT, t => BlockComment t
  | .L_PAREN, t => t = ['(']
  | .R_PAREN, t => t = [')']
  | .KEYWORD, t => t ∈ keywords
  | .INSTR_NAME, t => IsWord t
  | .IDENT, t => IsIdent t
  | .STRING, t => IsString t
  | .INT, t => IsInt t
  | .UNSIGNED_INT, t => IsUnsigned t
  | .FLOAT, t => IsFloat t ∧ ¬ IsInt t
  | .NUM_TYPE, t => t ∈ [t!"i32", t!"i64", t!"f32", t!"f64"]
  | .VEC_TYPE, t => t = t!"v128"
  | .REF_TYPE, t => t ∈ [t!"funcref", t!"externref"]
  | .HEAP_TYPE, t => t ∈ [t!"func", t!"extern"]
  | .SHARE, t => t ∈ [t!"shared", t!"unshared"]
  | .MEM_ARG, t => ∃ r, (t = t!"offset=" ++ r ∨ t = t!"align=" ++ r) ∧ IsUnsigned r
  | .ERROR, t => t ≠ []
  | _, _ => False

end Verif.Spec
