import Verif.Model.Winnow
/-!
Lexical parsers: `/repo/crates/parser/src/parser/token.rs`.
Parsers of the Rust code that yield one green element are modelled as yielding a one-element list, so
that every grammar parser has type `P (List Green)`.
-/
namespace Verif
open P

/-- Parsers of green elements. -/
abbrev G := P (List Green)

/-- `char::is_ascii_lowercase`. -/
def isLower (c : Char) : Bool := 'a'.toNat ≤ c.toNat && c.toNat ≤ 'z'.toNat
/-- `char::is_ascii_uppercase`. -/
def isUpper (c : Char) : Bool := 'A'.toNat ≤ c.toNat && c.toNat ≤ 'Z'.toNat
/-- `char::is_ascii_digit` / `AsChar::is_dec_digit`. -/
def isDigit (c : Char) : Bool := '0'.toNat ≤ c.toNat && c.toNat ≤ '9'.toNat
/-- `char::is_ascii_hexdigit` / `AsChar::is_hex_digit`. -/
def isHex (c : Char) : Bool :=
  isDigit c || ('a'.toNat ≤ c.toNat && c.toNat ≤ 'f'.toNat) ||
    ('A'.toNat ≤ c.toNat && c.toNat ≤ 'F'.toNat)
/-- `char::is_ascii_punctuation`: `!`..`/`, `:`..`@`, `[`..`` ` ``, `{`..`~`. -/
def isPunct (c : Char) : Bool :=
  (33 ≤ c.toNat && c.toNat ≤ 47) || (58 ≤ c.toNat && c.toNat ≤ 64) ||
    (91 ≤ c.toNat && c.toNat ≤ 96) || (123 ≤ c.toNat && c.toNat ≤ 126)
/-- `char::is_ascii_alphanumeric`. -/
def isAlnum (c : Char) : Bool := isLower c || isUpper c || isDigit c
/-- `char::is_ascii_whitespace`: space, `\t`, `\n`, form feed, `\r`. -/
def isAsciiWs (c : Char) : Bool :=
  c == ' ' || c == '\t' || c == '\n' || c == '\x0C' || c == '\r'
/-- The characters of `winnow::ascii::multispace1`. -/
def isMultispace (c : Char) : Bool := c == ' ' || c == '\t' || c == '\r' || c == '\n'

/-- `/repo/crates/parser/src/parser/token.rs:166-173` (`is_id_char`). -/
def isIdChar (c : Char) : Bool :=
  isAlnum c ||
    (isPunct c &&
      !(c == '\'' || c == '"' || c == ',' || c == ';' || c == '(' || c == ')' || c == '[' ||
        c == ']' || c == '{' || c == '}'))

/-- `/repo/crates/parser/src/parser/mod.rs:59-61` (`tok`) applied to a taken slice. -/
def tokP (k : Kind) (p : P Text) : G := map (fun t => [.tok k t]) p

/-- token.rs:13-17 (`l_paren`). -/
def lParen : G := context (.expChar '(') (tokP .L_PAREN (lit ['(']))

/-- token.rs:67-74 (`word`). -/
def word : P Text := take (bind (oneOf isLower) fun _ => takeWhile0 isIdChar)

/-- token.rs:92-96 (`ws`). -/
def ws : G := tokP .WHITESPACE (takeWhile1 isMultispace)

/-- `winnow::ascii::till_line_ending`: up to `\n` or `\r\n`; fails on a `\r` not followed by `\n`. -/
def tillLineEnding : P Unit :=
  bind (takeWhile0 fun c => c != '\r' && c != '\n') fun _ => fun s =>
    match s.rest with
    | '\r' :: '\n' :: _ => .ok () s
    | '\r' :: _ => .fail .new s
    | _ => .ok () s

/-- token.rs:98-103 (`line_comment`). -/
def lineComment : G := tokP .LINE_COMMENT (take (bind (lit [';', ';']) fun _ => tillLineEnding))

/-- Position of the first `(;` or `;)` in a text, as the text before it. -/
def untilCommentDelim : Text → Option Text
  | [] => none
  | c :: cs =>
    match c, cs with
    | '(', ';' :: _ => some []
    | ';', ')' :: _ => some []
    | _, _ => (untilCommentDelim cs).map (c :: ·)

/-- token.rs:116: `take_until(0.., ("(;", ";)"))`: consumes up to the earlier of the two delimiters, fails
(without consuming) if neither occurs. -/
def takeUntilCommentDelim : P Unit := fun s =>
  match untilCommentDelim s.rest with
  | some t => .ok () { s with rest := s.rest.drop t.length, pos := s.pos + bytes t }
  | none => .fail .new s

/-- token.rs:110-127 (`block_comment_impl`); `fuel` bounds the nesting depth. -/
def blockCommentImpl (dbg : Bool) : Nat → P Text
  | 0 => fun _ => .oof
  | fuel + 1 =>
    take (bind (lit ['(', ';']) fun _ =>
      repeatTill dbg
        (bind takeUntilCommentDelim fun _ =>
          bind (peek (opt (lit ['(', ';']))) fun o =>
            match o with
            | some _ => void (opt (blockCommentImpl dbg fuel))
            | none => pure ())
        (lit [';', ')']))

/-- token.rs:105-109 (`block_comment`). -/
def blockComment (dbg : Bool) : G := fun s =>
  tokP .BLOCK_COMMENT (blockCommentImpl dbg (s.rest.length + 1)) s

/-- token.rs:76-78 (`trivias`). -/
def trivias (dbg : Bool) : G :=
  map List.flatten (repeat0 dbg (alt [ws, lineComment, blockComment dbg]))

/-- A tuple of green parsers whose results are appended in order. The Rust code spells the appends out
(`children.push(..)`, `children.append(..)`) after each tuple. -/
def seq : List G → G
  | [] => pure []
  | p :: ps => bind p fun a => map (a ++ ·) (seq ps)

/-- An optional part: `opt(p)` followed by `if let Some(mut x) = .. { children.append(&mut x) }`. -/
def optG (p : G) : G := map (·.getD []) (opt p)

/-- `repeat(0.., p)` followed by appending all results. -/
def many (dbg : Bool) (p : G) : G := map List.flatten (repeat0 dbg p)

/-- `repeat(1.., p)` followed by appending all results. -/
def many1 (dbg : Bool) (p : G) : G := map List.flatten (repeat1 dbg p)

/-- `/repo/crates/parser/src/parser/mod.rs:63-69` (`node`) applied to the children parsed by `p`. -/
def nodeP (k : Kind) (p : G) : G := map (fun cs => [.node k cs]) p

/-- token.rs:80-90 (`trivias_prefixed`). -/
def tp (dbg : Bool) (p : G) : G := seq [trivias dbg, p]

/-- token.rs:129-137 (`keyword`). -/
def keyword (kw : Text) : G :=
  context (.expStr kw) (tokP .KEYWORD (verify (fun w => w == kw) word))

/-- token.rs:139-149 (`ident`, `ident_impl`). -/
def ident : G :=
  tokP .IDENT (context (.expDesc "identifier")
    (take (bind (lit ['$']) fun _ => takeWhile1 isIdChar)))

/-- token.rs:189-192: the escape dispatched on after a backslash in a string. -/
def strEscape : P Unit :=
  bind any fun c =>
    if c == 'u' then bind (lit ['{']) fun _ => bind (takeWhile0 isHex) fun _ => void (lit ['}'])
    else pure ()

/-- token.rs:187: the characters a string may hold unescaped. -/
def isStrNormal (c : Char) : Bool := !(c == '"' || c == '\\' || c == '\n' || c == '\r')

/-- Loop of `winnow::ascii::take_escaped(none_of(..), '\\', escape)`, token.rs:186-193. -/
def takeEscapedF : Nat → P Unit
  | 0 => fun _ => .oof
  | fuel + 1 => fun s =>
    match s.rest with
    | [] => .ok () s
    | c :: _ =>
      if isStrNormal c then bind any (fun _ => takeEscapedF fuel) s
      else if c == '\\' then bind any (fun _ => bind strEscape fun _ => takeEscapedF fuel) s
      else .ok () s

/-- `winnow::ascii::line_ending`: `\n` or `\r\n`. -/
def lineEnding : P Text := alt [lit ['\n'], lit ['\r', '\n']]

/-- token.rs:183-198 (`string_impl`). -/
def stringImpl : P Text :=
  take (bind (lit ['"']) fun _ =>
    bind (fun s => takeEscapedF (s.rest.length + 1) s) fun _ =>
      alt [lit ['"'], peek lineEnding, eof])

/-- token.rs:175-182 (`string`). -/
def string : G := tokP .STRING (context (.expDesc "string literal") stringImpl)

/-- token.rs:227-234 (`unsigned_hex`). -/
def unsignedHex : P Text :=
  take (bind (oneOf isHex) fun _ => takeWhile0 fun c => isHex c || c == '_')

/-- token.rs:235-242 (`unsigned_dec`). -/
def unsignedDec : P Text :=
  take (bind (oneOf isDigit) fun _ => takeWhile0 fun c => isDigit c || c == '_')

/-- token.rs:218-226 (`unsigned_int_impl`). -/
def unsignedIntImpl : P Text :=
  verify (fun t => t.getLast? != some '_')
    (take (bind (opt (lit ['0', 'x'])) fun o =>
      match o with
      | some _ => unsignedHex
      | none => unsignedDec))

/-- token.rs:213-217 (`unsigned_int`). -/
def unsignedInt : G := tokP .UNSIGNED_INT unsignedIntImpl

/-- `opt(one_of(['+', '-']))`. -/
def optSign : P Unit := void (opt (oneOf fun c => c == '+' || c == '-'))

/-- token.rs:203-211 (`int_impl`). -/
def intImpl : P Text :=
  take (bind optSign fun _ => bind unsignedIntImpl fun _ => peek (noneOf isIdChar))

/-- token.rs:200-202 (`int`). -/
def int : G := tokP .INT intImpl

/-- token.rs:268-285: the verification of underscores in a float literal. -/
def floatUnderscoresOk (isHexLit : Bool) : Text → Bool
  | [] => true
  | c :: cs =>
    if c == '_' then
      match cs with
      | [] => false
      | d :: ds => (if isHexLit then isHex d else isDigit d) && floatUnderscoresOk isHexLit ds
    else floatUnderscoresOk isHexLit cs

/-- token.rs:247-287 (`float_impl`). -/
def floatImpl : P Text :=
  verify (fun t => floatUnderscoresOk (['0', 'x'].isPrefixOf t) t)
    (take (bind optSign fun _ =>
      bind (alt [
        bind (lit ['0', 'x']) fun _ => bind unsignedHex fun _ =>
          bind (opt (bind (lit ['.']) fun _ => opt unsignedHex)) fun _ =>
            void (opt (bind (oneOf fun c => c == 'p' || c == 'P') fun _ =>
              bind optSign fun _ => unsignedDec)),
        bind unsignedDec fun _ =>
          bind (opt (bind (lit ['.']) fun _ => opt unsignedDec)) fun _ =>
            void (opt (bind (oneOf fun c => c == 'e' || c == 'E') fun _ =>
              bind optSign fun _ => unsignedDec)),
        void (lit ['i', 'n', 'f']),
        bind (lit ['n', 'a', 'n']) fun _ =>
          void (opt (bind (lit [':', '0', 'x']) fun _ => unsignedHex))]) fun _ =>
        peek (noneOf isIdChar)))

/-- token.rs:244-246 (`float`). -/
def float : G := tokP .FLOAT floatImpl

/-- token.rs:289-301 (`error_token`). -/
def errorToken (allowParens : Bool) : G :=
  tokP .ERROR (bind (peek any) fun c =>
    if c == '$' then take (bind (lit ['$']) fun _ => takeWhile0 isIdChar)
    else if c == '(' || c == ')' then
      if allowParens then alt [lit ['('], lit [')']] else fail
    else if c == '"' then stringImpl
    else if isIdChar c then takeWhile1 isIdChar
    else takeWhile1 fun c => !(c == '(' || c == ')' || isAsciiWs c))

/-- token.rs:316-349 (`error_term_inner`); `fuel` bounds the nesting depth. -/
def errorTermInner (dbg : Bool) : Nat → G
  | 0 => fun _ => .oof
  | fuel + 1 =>
    seq [tokP .ERROR (lit ['(']),
      many dbg (seq [trivias dbg,
        bind (peek (opt (lit ['(']))) fun o =>
          match o with
          | some _ => errorTermInner dbg fuel
          | none => errorToken false]),
      optG (tokP .ERROR (lit [')']))]

/-- token.rs:303-315 (`error_term`). -/
def errorTerm (dbg : Bool) (allowed : List Text) : G :=
  bind (peek (P.not (bind (trivias dbg) fun _ => bind (lit ['(']) fun _ =>
      bind (trivias dbg) fun _ => verify (fun w => allowed.any fun a => w == a) word)))
    fun _ => fun s => errorTermInner dbg (s.rest.length + 1) s

/-- `error_token(false).context(StrContext::Label("unexpected token"))`, mod.rs:100-101. -/
def unexpectedToken : G := context (.label "unexpected token") (errorToken false)

/-- Loop of token.rs:19-65 (`r_paren`). `start` is the state at entry, `acc` the tokens collected so far.
`Ok(None)` (the caller appends nothing) is modelled by the empty list. -/
def rParenF (dbg : Bool) (start : St) : Nat → List Green → G
  | 0, _ => fun _ => .oof
  | fuel + 1, acc => fun s =>
    match trivias dbg s with
    | .fail e s' => .fail e s'
    | .panic => .panic
    | .oof => .oof
    | .ok tr s1 =>
      match context (.expChar ')') (lit [')']) s1 with
      | .ok _ s2 => .ok (acc ++ tr ++ [.tok .R_PAREN [')']]) s2
      | .panic => .panic
      | .oof => .oof
      | .fail e s2 =>
        let s3 := s2.resetTo s1
        match unexpectedToken s3 with
        | .ok et s4 =>
          if s4.rest.length = s3.rest.length then
            let s5 := s4.resetTo start
            .fail (e.stamp s5) s5
          else rParenF dbg start fuel (acc ++ tr ++ et) (s4.record e)
        | .fail _ s4 => .ok [] ((s4.record e).resetTo start)
        | .panic => .panic
        | .oof => .oof

/-- token.rs:19-65 (`r_paren`). -/
def rParen (dbg : Bool) : G := fun s => rParenF dbg s (s.rest.length + 1) [] s

/-- One round of `retry`/`retry_once` (`/repo/crates/parser/src/parser/mod.rs:92-220`). `acc` are the tokens
of earlier rounds; `again` is what to do after a skipped error token (loop for `retry`, return for
`retry_once`). -/
def retryRound (dbg : Bool) (p : G) (allowed : List Text) (acc : List Green)
    (again : List Green → G) : G := fun s =>
  match trivias dbg s with
  | .fail e s' => .fail e s'
  | .panic => .panic
  | .oof => .oof
  | .ok tr s1 =>
    match p s1 with
    | .ok o s2 => .ok (acc ++ tr ++ o) s2
    | .panic => .panic
    | .oof => .oof
    | .fail e s2 =>
      let s3 := s2.resetTo s1
      match unexpectedToken s3 with
      | .ok et s4 =>
        if s4.rest.length = s3.rest.length then
          let s5 := s4.resetTo s
          .fail (e.stamp s5) s5
        else again (acc ++ tr ++ et) (s4.record e)
      | .panic => .panic
      | .oof => .oof
      | .fail _ s4 =>
        -- `error_term_parser` runs from wherever the failed error-token parser stopped
        match errorTerm dbg allowed s4 with
        | .ok ets s6 =>
          if s6.rest.length = s3.rest.length then
            let s7 := s6.resetTo s
            .fail (e.stamp s7) s7
          else .ok (acc ++ tr ++ ets) (s6.record e)
        | .fail _ s6 =>
          let s7 := s6.resetTo s
          .fail (e.stamp s7) s7
        | .panic => .panic
        | .oof => .oof

/-- Loop of mod.rs:92-156 (`retry`). -/
def retryF (dbg : Bool) (p : G) (allowed : List Text) : Nat → List Green → G
  | 0, _ => fun _ => .oof
  | fuel + 1, acc => retryRound dbg p allowed acc (retryF dbg p allowed fuel)

/-- mod.rs:92-156 (`retry`). -/
def retry (dbg : Bool) (p : G) (allowed : List Text) : G := fun s =>
  retryF dbg p allowed (s.rest.length + 1) [] s

/-- mod.rs:160-220 (`retry_once`). -/
def retryOnce (dbg : Bool) (p : G) (allowed : List Text) : G :=
  retryRound dbg p allowed [] fun acc => pure acc

/-- mod.rs:225-247 (`must`): records the error, resets, yields nothing. -/
def must (p : G) : G := fun s =>
  match p s with
  | .ok o s' => .ok o s'
  | .fail e s' => .ok [] ((s'.record e).resetTo s)
  | .panic => .panic
  | .oof => .oof

end Verif
