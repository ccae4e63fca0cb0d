import Verif.Model.Syntax
/-!
The parser state, the outcomes of a parser and the `winnow` 0.6 combinators the parser crate uses.
`winnow` is third-party code whose source is not available offline; the definitions below are the
trusted reading of its documented behaviour (see DESIGN.md, section 1).  The error type and its
stamping rules are the project's own: `/repo/crates/parser/src/error.rs`.
-/
namespace Verif

/-- `winnow::error::StrContext`, the message of a syntax error. -/
inductive Msg where
  | unknown                 -- `StrContext::Label("<unknown syntax error>")`, error.rs:20
  | label (s : String)      -- `StrContext::Label(s)`
  | expChar (c : Char)      -- `StrContext::Expected(StrContextValue::CharLiteral(c))`
  | expStr (s : Text)       -- `StrContext::Expected(StrContextValue::StringLiteral(s))`
  | expDesc (s : String)    -- `StrContext::Expected(StrContextValue::Description(s))`
  deriving DecidableEq, Repr, Inhabited

/-- `/repo/crates/parser/src/error.rs:9-13` (`struct SyntaxError`). -/
structure Err where
  start : Nat
  stop : Nat
  msg : Msg
  deriving DecidableEq, Repr, Inhabited

/-- `/repo/crates/parser/src/error.rs:16-22` (`SyntaxError::new`), also what
`from_error_kind` (error.rs:51-53) returns. -/
def Err.new : Err := ⟨0, 0, .unknown⟩

/-- The parser input: `Recoverable<Located<&str>, SyntaxError>`
(`/repo/crates/parser/src/parser/mod.rs:57`).  `rest` is the unconsumed text, `pos` is
`location()` (bytes consumed so far), `errs` are the errors recorded so far (oldest first). -/
structure St where
  rest : Text
  pos : Nat
  errs : List Err
  deriving DecidableEq, Repr, Inhabited

/-- The outcome of running a parser.  `fail` is `Err(ErrMode::Backtrack(e))` (the project's parsers
never produce `Cut` or `Incomplete`), `panic` is an unwinding panic, `oof` means that the fuel of the
model ran out (shown unreachable in `Props/C03`). The state after a failure is kept because winnow does
not restore the input on failure and `context` reads the location there. -/
inductive Out (α : Type) where
  | ok (a : α) (s : St)
  | fail (e : Err) (s : St)
  | panic
  | oof
  deriving Repr

/-- A parser: `Parser<Input, α, SyntaxError>`. -/
abbrev P (α : Type) := St → Out α

/-- `Stream::reset(&checkpoint)` for `Recoverable`: restores the position, keeps recorded errors. -/
def St.resetTo (s : St) (start : St) : St := { start with errs := s.errs }

/-- `/repo/crates/parser/src/error.rs:25-35` (`from_recoverable_error`): stamps the end. -/
def Err.stamp (e : Err) (s : St) : Err := { e with stop := s.pos }

/-- `Recover::record_err` of `Recoverable` (recovery enabled): pushes the stamped error, returns `Ok`. -/
def St.record (s : St) (e : Err) : St := { s with errs := s.errs ++ [e.stamp s] }

namespace P

/-- A parser that succeeds without consuming (`winnow::combinator::empty.value(a)`). -/
def pure (a : α) : P α := fun s => .ok a s

/-- Sequencing: a tuple of parsers, or `flat_map`/`dispatch!`; a failure in the middle is returned
as is, without restoring the input. -/
def bind (p : P α) (f : α → P β) : P β := fun s =>
  match p s with
  | .ok a s' => f a s'
  | .fail e s' => .fail e s'
  | .panic => .panic
  | .oof => .oof

/-- `Parser::map`. -/
def map (f : α → β) (p : P α) : P β := bind p fun a => pure (f a)

/-- `winnow::combinator::fail`. -/
def fail : P α := fun s => .fail .new s

/-- `Parser::context(msg)` with `/repo/crates/parser/src/error.rs:37-48` (`add_context`): on failure the
error's start becomes the location where the parser stopped and the message is replaced. -/
def context (m : Msg) (p : P α) : P α := fun s =>
  match p s with
  | .fail e s' => .fail { e with start := s'.pos, msg := m } s'
  | o => o

/-- `winnow::combinator::opt`: on failure the input is reset. -/
def opt (p : P α) : P (Option α) := fun s =>
  match p s with
  | .ok a s' => .ok (some a) s'
  | .fail _ s' => .ok none (s'.resetTo s)
  | .panic => .panic
  | .oof => .oof

/-- `winnow::combinator::peek`: the input is reset in both cases. -/
def peek (p : P α) : P α := fun s =>
  match p s with
  | .ok a s' => .ok a (s'.resetTo s)
  | .fail e s' => .fail e (s'.resetTo s)
  | .panic => .panic
  | .oof => .oof

/-- `winnow::combinator::not`. -/
def not (p : P α) : P Unit := fun s =>
  match p s with
  | .ok _ s' => .fail .new (s'.resetTo s)
  | .fail _ s' => .ok () (s'.resetTo s)
  | .panic => .panic
  | .oof => .oof

/-- `winnow::combinator::alt((p, q))`: the input is reset before the second branch; the last error is
kept (`ParserError::or` is not overridden in error.rs). -/
def alt2 (p q : P α) : P α := fun s =>
  match p s with
  | .fail _ s' => q (s'.resetTo s)
  | o => o

/-- `winnow::combinator::alt` on a tuple of parsers. -/
def alt : List (P α) → P α
  | [] => fail
  | [p] => p
  | p :: ps => alt2 p (alt ps)

/-- `Parser::verify_map(f)`: resets the input when the filter rejects. -/
def verifyMap (f : α → Option β) (p : P α) : P β := fun s =>
  match p s with
  | .ok a s' =>
    match f a with
    | some b => .ok b s'
    | none => .fail .new (s'.resetTo s)
  | .fail e s' => .fail e s'
  | .panic => .panic
  | .oof => .oof

/-- `Parser::verify(f)`. -/
def verify (f : α → Bool) (p : P α) : P α := verifyMap (fun a => if f a then some a else none) p

/-- `Parser::take`: yields the consumed slice. -/
def take (p : P α) : P Text := fun s =>
  match p s with
  | .ok _ s' => .ok (s.rest.take (s.rest.length - s'.rest.length)) s'
  | .fail e s' => .fail e s'
  | .panic => .panic
  | .oof => .oof

/-- `Parser::void`. -/
def void (p : P α) : P Unit := map (fun _ => ()) p

/-- The progress assertion of `repeat`/`repeat_till` (`ParserError::assert`): panics when built with
debug assertions (`dbg = true`), otherwise an ordinary error. -/
def assertFail (dbg : Bool) : P α := fun s => if dbg then .panic else .fail .new s

/-- Loop of `winnow::combinator::repeat(0.., p)`; `fuel` bounds the iterations. -/
def repeatF (dbg : Bool) (p : P α) : Nat → P (List α)
  | 0 => fun _ => .oof
  | fuel + 1 => fun s =>
    match p s with
    | .fail _ s' => .ok [] (s'.resetTo s)
    | .ok a s' =>
      if s'.rest.length = s.rest.length then assertFail dbg s'
      else map (fun as => a :: as) (repeatF dbg p fuel) s'
    | .panic => .panic
    | .oof => .oof

/-- `winnow::combinator::repeat(0.., p)`. Every iteration consumes, so `rest.length + 1` rounds
suffice. -/
def repeat0 (dbg : Bool) (p : P α) : P (List α) := fun s => repeatF dbg p (s.rest.length + 1) s

/-- `winnow::combinator::repeat(1.., p)`. -/
def repeat1 (dbg : Bool) (p : P α) : P (List α) := fun s =>
  match p s with
  | .fail e s' => .fail e (s'.resetTo s)
  | .ok a s' => map (fun as => a :: as) (repeat0 dbg p) s'
  | .panic => .panic
  | .oof => .oof

/-- Loop of `winnow::combinator::repeat_till(0.., p, g)`. -/
def repeatTillF (dbg : Bool) (p : P α) (g : P β) : Nat → P (List α × β)
  | 0 => fun _ => .oof
  | fuel + 1 => fun s =>
    match g s with
    | .ok b s' => .ok ([], b) s'
    | .fail _ s' =>
      match p (s'.resetTo s) with
      | .fail e s'' => .fail e s''
      | .ok a s'' =>
        if s''.rest.length = s.rest.length then assertFail dbg s''
        else map (fun r => (a :: r.1, r.2)) (repeatTillF dbg p g fuel) s''
      | .panic => .panic
      | .oof => .oof
    | .panic => .panic
    | .oof => .oof

/-- `winnow::combinator::repeat_till(0.., p, g)`. -/
def repeatTill (dbg : Bool) (p : P α) (g : P β) : P (List α × β) := fun s =>
  repeatTillF dbg p g (s.rest.length + 1) s

/-- `winnow::token::any`. -/
def any : P Char := fun s =>
  match s.rest with
  | [] => .fail .new s
  | c :: cs => .ok c { s with rest := cs, pos := s.pos + c.utf8Size }

/-- `winnow::token::one_of(f)`: does not consume on failure. -/
def oneOf (f : Char → Bool) : P Char := verify f any

/-- `winnow::token::none_of(f)`: fails at the end of input. -/
def noneOf (f : Char → Bool) : P Char := verify (fun c => !f c) any

/-- A string (or char) literal parser: `winnow::token::literal`. -/
def lit (t : Text) : P Text := fun s =>
  if t.isPrefixOf s.rest then .ok t { s with rest := s.rest.drop t.length, pos := s.pos + bytes t }
  else .fail .new s

/-- `winnow::token::take_while(0.., f)`. -/
def takeWhile0 (f : Char → Bool) : P Text := fun s =>
  let t := s.rest.takeWhile f
  .ok t { s with rest := s.rest.dropWhile f, pos := s.pos + bytes t }

/-- `winnow::token::take_while(1.., f)`: does not consume on failure. -/
def takeWhile1 (f : Char → Bool) : P Text := fun s =>
  match s.rest.takeWhile f with
  | [] => .fail .new s
  | c :: cs => .ok (c :: cs) { s with rest := s.rest.dropWhile f, pos := s.pos + bytes (c :: cs) }

/-- `winnow::combinator::eof`. -/
def eof : P Text := fun s => if s.rest.isEmpty then .ok [] s else .fail .new s

end P

end Verif
