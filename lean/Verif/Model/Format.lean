import Verif.Model.Grammar
/-!
The formatter: `/repo/crates/formatter/src/lib.rs` and `printer/*.rs`.  The printer turns a tree into a document
of the `tiny_pretty` library; the library lays the document out.  The model follows the printer function by
function, up to the document; `Spec/Print.lean` says which texts a document may be laid out as.

Every `impl DocGen for X` is one definition here.  The Rust functions keep two mutable vectors, `docs` and
`trivias`; here they are the fields of `Pr`, and each block of a Rust function is one step on `Pr`.
-/
namespace Verif

/-- The constructors of `tiny_pretty::Doc` the printer uses.  `crash` stands for a panic while the document is
built (the two `expect`s of mod.rs:256-258 and 271-274). -/
inductive Doc where
  | nil
  | text (t : Text)
  | hardLine
  | softLine
  | emptyLine
  | nest (n : Nat) (d : Doc)
  | list (ds : List Doc)
  | crash
  deriving Repr, Inhabited

/-- `Doc::space()`: a text of one blank. -/
def Doc.space : Doc := .text [' ']

/-- The options the printer reads (config.rs:26-31, 71-112; `Ctx`, mod.rs:10-21). -/
structure FmtOpts where
  indent : Nat := 2
  formatComments : Bool := false
  directive : Text := t!"fmt-ignore"
  deriving Repr, Inhabited

/-! ### Comments (mod.rs:254-289) -/

/-- `str::strip_prefix`. -/
def stripPrefix (p : Text) (t : Text) : Option Text :=
  if p.isPrefixOf t then some (t.drop p.length) else none

/-- `str::strip_suffix`. -/
def stripSuffix (p : Text) (t : Text) : Option Text :=
  if p.isSuffixOf t then some (t.take (t.length - p.length)) else none

/-- The pattern `[' ', '\t']`. -/
def isBlankTab (c : Char) : Bool := c == ' ' || c == '\t'

/-- `starts_with([' ', '\t'])`. -/
def startsBlank (t : Text) : Bool := t.head?.any isBlankTab

/-- `ends_with([' ', '\t'])`. -/
def endsBlank (t : Text) : Bool := t.getLast?.any isBlankTab

/-- mod.rs:254-267 (`format_line_comment`), the text it prints; `none` is the panic. -/
def formatLineComment (o : FmtOpts) (t : Text) : Option Text :=
  if o.formatComments then
    (stripPrefix t!";;" t).map fun content =>
      if content.isEmpty || startsBlank content then t else t!";; " ++ content
  else some t

/-- mod.rs:269-289 (`format_block_comment`), the text it prints; `none` is the panic. -/
def formatBlockComment (o : FmtOpts) (t : Text) : Option Text :=
  if o.formatComments then
    ((stripPrefix t!"(;" t).bind (stripSuffix t!";)")).map fun content =>
      let lead := startsBlank content
      let trail := endsBlank content
      if content.isEmpty || lead && trail then t
      else if lead then t!"(;" ++ content ++ t!" ;)"
      else if trail then t!"(; " ++ content ++ t!";)"
      else t!"(; " ++ content ++ t!" ;)"
  else some t

/-- A text document, or a panic. -/
def textOr (o : Option Text) : Doc :=
  match o with
  | some t => .text t
  | none => .crash

/-! ### Trivia after a node or a token (mod.rs:143-252) -/

/-- `chars().filter(|c| *c == '\n').count()`. -/
def newlineCount (t : Text) : Nat := (t.filter (· == '\n')).length

/-- mod.rs:151-164 and 207-220: the elements the trivia functions collect. -/
def fmtTrivia : Green → Option (Kind × Text)
  | .tok k t =>
    if k == .LINE_COMMENT || k == .BLOCK_COMMENT || k == .WHITESPACE || k == .ERROR then some (k, t) else none
  | .node _ _ => none

/-- mod.rs:147-165 (`map_while`): the tokens of those kinds that come first among the following siblings. -/
def triviaAfter : List Green → List (Kind × Text)
  | [] => []
  | g :: gs =>
    match fmtTrivia g with
    | some x => x :: triviaAfter gs
    | none => []

/-- mod.rs:181-200 and 231-250: the documents of one trivia token. -/
def triviaDocs (o : FmtOpts) (x : Kind × Text) : List Doc :=
  match x.1 with
  | .LINE_COMMENT => [textOr (formatLineComment o x.2)]
  | .BLOCK_COMMENT => [textOr (formatBlockComment o x.2)]
  | .WHITESPACE =>
    match newlineCount x.2 with
    | 0 => [.space]
    | 1 => [.hardLine]
    | _ => [.emptyLine, .hardLine]
  | .ERROR => [.text x.2]
  | _ => []

/-- mod.rs:143-202 (`format_trivias_after_node`); the argument is the list of siblings after the node. -/
def afterNode (o : FmtOpts) (after : List Green) : List Doc :=
  let ts := triviaAfter after
  if ts.all fun x => x.1 == .WHITESPACE && decide (newlineCount x.2 < 2) then []
  else
    (if ts.head?.any fun x => x.1 == .LINE_COMMENT || x.1 == .BLOCK_COMMENT then [.softLine] else []) ++
      ts.flatMap (triviaDocs o)

/-- mod.rs:203-252 (`format_trivias_after_token`). -/
def afterToken (o : FmtOpts) (after : List Green) : List Doc :=
  let ts := (triviaAfter after).dropWhile fun x => x.1 == .WHITESPACE
  if ts.all fun x => x.1 == .WHITESPACE then [] else .space :: ts.flatMap (triviaDocs o)

/-! ### Ignored nodes (mod.rs:291-323) -/

/-- `char::is_whitespace` (Unicode `White_Space`). -/
def isUnicodeWs (c : Char) : Bool :=
  let n := c.toNat
  (9 ≤ n && n ≤ 13) || n == 32 || n == 0x85 || n == 0xA0 || n == 0x1680 || (0x2000 ≤ n && n ≤ 0x200A) ||
    n == 0x2028 || n == 0x2029 || n == 0x202F || n == 0x205F || n == 0x3000

/-- mod.rs:315-322: the comment is the ignore directive. -/
def isDirective (o : FmtOpts) (t : Text) : Bool :=
  match (stripPrefix t!";;" t).bind fun s => stripPrefix o.directive (s.dropWhile isUnicodeWs) with
  | some rest => rest.isEmpty || rest.head?.any isAsciiWs
  | none => false

/-- mod.rs:304-311: the element before the previous one, of the node or else of its parent. -/
def twoBefore (before parentBefore : List Green) : Option Green :=
  match before[1]? with
  | some g => some g
  | none => parentBefore[1]?

/-- mod.rs:302-323 (`should_ignore`); the arguments are the siblings before the node and the siblings before its
parent, nearest first. -/
def shouldIgnore (o : FmtOpts) (before parentBefore : List Green) : Bool :=
  match twoBefore before parentBefore with
  | some (.tok .LINE_COMMENT t) => isDirective o t
  | _ => false

/-- `str::lines`: split after each `\n`, drop the `\n` and a `\r` right before it; the rest after the last `\n`
is a line unless it is empty. -/
def textLines : Text → List Text
  | [] => []
  | '\n' :: cs => [] :: textLines cs
  | '\r' :: '\n' :: cs => [] :: textLines cs
  | c :: cs =>
    match textLines cs with
    | [] => [[c]]
    | l :: ls => (c :: l) :: ls

/-- mod.rs:296-299: the lines after the first. -/
def reflowRest : List Text → List Doc
  | [] => []
  | l :: ls => .emptyLine :: .text l :: reflowRest ls

/-- mod.rs:291-300 (`reflow`). -/
def reflow (t : Text) : List Doc :=
  match textLines t with
  | [] => []
  | l :: ls => .text l :: reflowRest ls

/-! ### The steps of a printer function -/

/-- A child of the node being printed: the child, its own document, and the siblings before (nearest first) and
after it. -/
structure Spot where
  g : Green
  d : Doc
  before : List Green
  after : List Green
  deriving Repr, Inhabited

/-- The element is a token of the kind. -/
def Green.isTokOf (k : Kind) : Green → Bool
  | .tok k' _ => k' == k
  | .node _ _ => false

/-- The element is a node of the kind. -/
def Green.isNodeOf (k : Kind) : Green → Bool
  | .tok _ _ => false
  | .node k' _ => k' == k

/-- `support::token`: the first child token of the kind. -/
def tokSpot (k : Kind) (ss : List Spot) : Option Spot := ss.find? fun s => s.g.isTokOf k

/-- The child tokens of the kind. -/
def tokSpots (k : Kind) (ss : List Spot) : List Spot := ss.filter fun s => s.g.isTokOf k

/-- `support::child`: the first child node of the kind. -/
def nodeSpot (k : Kind) (ss : List Spot) : Option Spot := ss.find? fun s => s.g.isNodeOf k

/-- `support::children`: the child nodes of the kind. -/
def nodeSpots (k : Kind) (ss : List Spot) : List Spot := ss.filter fun s => s.g.isNodeOf k

/-- The node is an instruction (`Instr::can_cast`, `/repo/crates/syntax/src/ast/instr.rs:282-291, 434-437`). -/
def Green.isInstr (g : Green) : Bool :=
  g.isNodeOf .PLAIN_INSTR || g.isNodeOf .BLOCK_BLOCK || g.isNodeOf .BLOCK_LOOP || g.isNodeOf .BLOCK_IF

/-- `children::<Instr>`. -/
def instrSpots (ss : List Spot) : List Spot := ss.filter fun s => s.g.isInstr

/-- The first token of the kind `KEYWORD` with the text (`end_keyword`, `declare_keyword`). -/
def wordSpot (w : Text) (ss : List Spot) : Option Spot :=
  ss.find? fun s => s.g.isTokOf .KEYWORD && s.g.text == w

/-- The node has a child token of the kind (`x.keyword().is_some()`, `x.l_paren_token().is_some()`). -/
def Green.hasTok (k : Kind) (g : Green) : Bool := g.children.any (·.isTokOf k)

/-- The node has a child instruction (`operand.instr().is_some()`). -/
def Green.hasInstr (g : Green) : Bool := g.children.any (·.isInstr)

/-- The two vectors of a printer function: `docs` and `trivias`. -/
structure Pr where
  docs : List Doc
  triv : List Doc
  deriving Repr, Inhabited

/-- The vectors at the start. -/
def Pr.init : Pr := ⟨[], []⟩

/-- `if trivias.is_empty() { docs.push(sep) } else { docs.append(&mut trivias) }`, the documents added. -/
def sepOr (sep : List Doc) (triv : List Doc) : List Doc := if triv.isEmpty then sep else triv

/-- `if let Some(l_paren) = self.l_paren_token() { docs.push(Doc::text("(")); trivias = … }`. -/
def Pr.lparen (o : FmtOpts) (ss : List Spot) (p : Pr) : Pr :=
  match tokSpot .L_PAREN ss with
  | some s => ⟨p.docs ++ [.text t!"("], afterToken o s.after⟩
  | none => p

/-- `if let Some(keyword) = … { docs.append(&mut trivias); docs.push(Doc::text(w)); trivias = … }`. -/
def Pr.word (o : FmtOpts) (x : Option Spot) (w : Text) (p : Pr) : Pr :=
  match x with
  | some s => ⟨p.docs ++ p.triv ++ [.text w], afterToken o s.after⟩
  | none => p

/-- The keyword of the node, printed as `w`. -/
def Pr.kw (o : FmtOpts) (ss : List Spot) (w : Text) (p : Pr) : Pr := p.word o (tokSpot .KEYWORD ss) w

/-- One token with the separator, printed as `w`:
`if trivias.is_empty() { docs.push(sep) } else { docs.append(&mut trivias) } docs.push(Doc::text(w)); trivias = …`. -/
def Pr.tokAs (o : FmtOpts) (sep : Doc) (w : Text) (s : Spot) (p : Pr) : Pr :=
  ⟨p.docs ++ sepOr [sep] p.triv ++ [.text w], afterToken o s.after⟩

/-- `if let Some(token) = … { … }` with `Pr.tokAs`. -/
def Pr.tokAs? (o : FmtOpts) (sep : Doc) (w : Text) (x : Option Spot) (p : Pr) : Pr :=
  match x with
  | some s => p.tokAs o sep w s
  | none => p

/-- One token with the separator. -/
def Pr.tok (o : FmtOpts) (sep : Doc) (s : Spot) (p : Pr) : Pr := p.tokAs o sep s.g.text s

/-- `if let Some(token) = … { … }` with `Pr.tok`. -/
def Pr.tok? (o : FmtOpts) (sep : Doc) (x : Option Spot) (p : Pr) : Pr :=
  match x with
  | some s => p.tok o sep s
  | none => p

/-- `tokens.for_each(|token| { … })` with `Pr.tok`. -/
def Pr.toks (o : FmtOpts) (sep : Doc) (xs : List Spot) (p : Pr) : Pr := xs.foldl (fun p s => p.tok o sep s) p

/-- One node with the separator. -/
def Pr.part (o : FmtOpts) (sep : List Doc) (s : Spot) (p : Pr) : Pr :=
  ⟨p.docs ++ sepOr sep p.triv ++ [s.d], afterNode o s.after⟩

/-- `if let Some(node) = … { … }` with `Pr.part`. -/
def Pr.part? (o : FmtOpts) (sep : List Doc) (x : Option Spot) (p : Pr) : Pr :=
  match x with
  | some s => p.part o sep s
  | none => p

/-- `nodes.for_each(|node| { … })` with `Pr.part`. -/
def Pr.parts (o : FmtOpts) (sep : List Doc) (xs : List Spot) (p : Pr) : Pr :=
  xs.foldl (fun p s => p.part o sep s) p

/-- `docs.push(Doc::list(nodes.fold(vec![], …)).nest(ctx.indent_width))`: the nodes on lines of their own in a
nested list, which takes over the pending trivia. -/
def Pr.nested (o : FmtOpts) (xs : List Spot) (p : Pr) : Pr :=
  let q := Pr.parts o [.hardLine] xs ⟨[], p.triv⟩
  ⟨p.docs ++ [.nest o.indent (.list q.docs)], q.triv⟩

/-- `if let Some(r_paren) = self.r_paren_token() { docs.append(&mut trivias); docs.push(Doc::text(")")); … }`. -/
def Pr.rparen? (o : FmtOpts) (ss : List Spot) (p : Pr) : Pr :=
  match tokSpot .R_PAREN ss with
  | some s => ⟨p.docs ++ p.triv ++ [.text t!")"], afterToken o s.after⟩
  | none => p

/-- `docs.append(&mut trivias); docs.push(Doc::text(")")); Doc::list(docs)`. -/
def Pr.close (p : Pr) : Doc := .list (p.docs ++ p.triv ++ [.text t!")"])

/-! ### ty.rs -/

/-- ty.rs:5-40. -/
def fmtFuncType (o : FmtOpts) (ss : List Spot) : Doc :=
  ((((Pr.init.lparen o ss).kw o ss t!"func").parts o [.space] (nodeSpots .PARAM ss)).parts o [.space]
    (nodeSpots .RESULT ss)).close

/-- ty.rs:42-71. -/
def fmtGlobalType (o : FmtOpts) (ss : List Spot) : Doc :=
  match tokSpot .L_PAREN ss with
  | some _ => (((Pr.init.lparen o ss).kw o ss t!"mut").part? o [.space] (nodeSpot .VAL_TYPE ss)).close
  | none =>
    match nodeSpot .VAL_TYPE ss with
    | some s => s.d
    | none => .nil

/-- ty.rs:77-80: the first number of the limits. -/
def fmtMin (o : FmtOpts) (x : Option Spot) (p : Pr) : Pr :=
  match x with
  | some s => ⟨p.docs ++ [.text s.g.text], afterToken o s.after⟩
  | none => p

/-- ty.rs:73-91. -/
def fmtLimits (o : FmtOpts) (ss : List Spot) : Doc :=
  .list ((fmtMin o (tokSpot .UNSIGNED_INT ss) Pr.init).tok? o .space (tokSpots .UNSIGNED_INT ss)[1]?).docs

/-- ty.rs:93-101. -/
def fmtMemoryType (ss : List Spot) : Doc :=
  match nodeSpot .LIMITS ss with
  | some s => s.d
  | none => .nil

/-- ty.rs:103-138. -/
def fmtParam (o : FmtOpts) (ss : List Spot) : Doc :=
  ((((Pr.init.lparen o ss).kw o ss t!"param").tok? o .space (tokSpot .IDENT ss)).parts o [.space]
    (nodeSpots .VAL_TYPE ss)).close

/-- ty.rs:140-166. -/
def fmtResult (o : FmtOpts) (ss : List Spot) : Doc :=
  (((Pr.init.lparen o ss).kw o ss t!"result").parts o [.space] (nodeSpots .VAL_TYPE ss)).close

/-- ty.rs:172-175: the limits of a table type, which come first. -/
def fmtHead (o : FmtOpts) (x : Option Spot) (p : Pr) : Pr :=
  match x with
  | some s => ⟨p.docs ++ [s.d], afterNode o s.after⟩
  | none => p

/-- ty.rs:168-186. -/
def fmtTableType (o : FmtOpts) (ss : List Spot) : Doc :=
  .list ((fmtHead o (nodeSpot .LIMITS ss) Pr.init).tok? o .space (tokSpot .REF_TYPE ss)).docs

/-- `Doc::text(self.syntax().to_string())`: ty.rs:188-192, module.rs:410-414, 1117-1127. -/
def fmtText (ss : List Spot) : Doc := .text (Green.textL (ss.map (·.g)))

/-! ### instr.rs -/

/-- instr.rs:5-73 (`w` is `block`) and 256-324 (`w` is `loop`), which are otherwise equal. -/
def fmtBlockLike (o : FmtOpts) (w : Text) (ss : List Spot) : Doc :=
  let p := (((Pr.init.lparen o ss).kw o ss w).tok? o .space (tokSpot .IDENT ss)).part? o [.space]
    (nodeSpot .BLOCK_TYPE ss)
  let p := (p.nested o (instrSpots ss)).rparen? o ss
  let p := p.tokAs? o .hardLine t!"end" (wordSpot t!"end" ss)
  .list (p.tok? o .space (tokSpots .IDENT ss)[1]?).docs

/-- instr.rs:118-126: the `then` part of an `if`. -/
def fmtThen (o : FmtOpts) (x : Option Spot) (p : Pr) : Pr :=
  match x with
  | some s =>
    ⟨p.docs ++ (if p.triv.isEmpty && s.g.hasTok .L_PAREN then [.hardLine] else p.triv) ++ [s.d], afterNode o s.after⟩
  | none => p

/-- instr.rs:75-166. -/
def fmtBlockIf (o : FmtOpts) (ss : List Spot) : Doc :=
  let p := (((Pr.init.lparen o ss).kw o ss t!"if").tok? o .space (tokSpot .IDENT ss)).part? o [.space]
    (nodeSpot .BLOCK_TYPE ss)
  let q := (fmtThen o (nodeSpot .BLOCK_IF_THEN ss) (Pr.parts o [.hardLine] (instrSpots ss) ⟨[], p.triv⟩)).part? o
    [.hardLine] (nodeSpot .BLOCK_IF_ELSE ss)
  let p : Pr := ⟨p.docs ++ (match tokSpot .L_PAREN ss with
    | some _ => [.nest o.indent (.list q.docs)]
    | none => q.docs), q.triv⟩
  let p := p.rparen? o ss
  let p := p.tokAs? o .hardLine t!"end" (wordSpot t!"end" ss)
  .list (p.tok? o .space (tokSpots .IDENT ss)[1]?).docs

/-- instr.rs:168-205 (`w` is `else`) and 207-244 (`w` is `then`), which are otherwise equal. -/
def fmtBranch (o : FmtOpts) (w : Text) (ss : List Spot) : Doc :=
  .nest o.indent (.list (((((Pr.init.lparen o ss).kw o ss w).tok? o .space (tokSpot .IDENT ss)).parts o [.hardLine]
    (instrSpots ss)).rparen? o ss).docs)

/-- instr.rs:326-336. -/
def fmtBlockType (ss : List Spot) : Doc :=
  match nodeSpot .RESULT ss with
  | some s => s.d
  | none =>
    match nodeSpot .TYPE_USE ss with
    | some s => s.d
    | none => .nil

/-- `first_token` of `rowan`: the token reached by following first children. -/
def Green.firstTok : Green → Option Text
  | .tok _ t => some t
  | .node _ [] => none
  | .node _ (g :: _) => g.firstTok

/-- instr.rs:347-359. -/
def fmtOperand (ss : List Spot) : Doc :=
  match (instrSpots ss).head? with
  | some s => s.d
  | none =>
    match nodeSpot .TYPE_USE ss with
    | some s => s.d
    | none =>
      match ss.head?.bind (·.g.firstTok) with
      | some t => .text t
      | none => .nil

/-- instr.rs:374-386: the operands of an instruction. -/
def fmtOperands (o : FmtOpts) (xs : List Spot) (p : Pr) : Pr :=
  xs.foldl (fun p s => p.part o [if s.g.hasInstr then .hardLine else .space] s) p

/-- instr.rs:369-373: the name of an instruction. -/
def fmtInstrName (o : FmtOpts) (x : Option Spot) (p : Pr) : Pr :=
  match x with
  | some s => ⟨p.docs ++ p.triv ++ [.text s.g.text], afterToken o s.after⟩
  | none => p

/-- instr.rs:361-393. -/
def fmtPlainInstr (o : FmtOpts) (ss : List Spot) : Doc :=
  .nest o.indent (.list ((fmtOperands o (nodeSpots .OPERAND ss)
    (fmtInstrName o (tokSpot .INSTR_NAME ss) (Pr.init.lparen o ss))).rparen? o ss).docs)

/-! ### module.rs -/

/-- module.rs:5-31. -/
def fmtData (o : FmtOpts) (ss : List Spot) : Doc :=
  (((Pr.init.lparen o ss).kw o ss t!"data").toks o .space (tokSpots .STRING ss)).close

/-- A part that is on a line of its own only if it has a keyword: module.rs:55-68, 132-145, 575-588, 644-657. -/
def Pr.own (o : FmtOpts) (s : Spot) (p : Pr) : Pr :=
  ⟨p.docs ++ (if p.triv.isEmpty && s.g.hasTok .KEYWORD then [.nest o.indent .hardLine] else p.triv) ++
    [if s.g.hasTok .KEYWORD then .nest o.indent s.d else s.d], afterNode o s.after⟩

/-- `Pr.own` for an optional part. -/
def Pr.own? (o : FmtOpts) (x : Option Spot) (p : Pr) : Pr :=
  match x with
  | some s => p.own o s
  | none => p

/-- `Pr.own` for each of several parts. -/
def Pr.owns (o : FmtOpts) (xs : List Spot) (p : Pr) : Pr := xs.foldl (fun p s => p.own o s) p

/-- module.rs:33-73. -/
def fmtElem (o : FmtOpts) (ss : List Spot) : Doc :=
  ((((Pr.init.lparen o ss).kw o ss t!"elem").parts o [.space] (nodeSpots .INDEX ss)).owns o
    (nodeSpots .ELEM_EXPR ss)).close

/-- module.rs:75-107 (`w` is `item`) and 1129-1161 (`w` is `offset`), which are otherwise equal. -/
def fmtExpr (o : FmtOpts) (w : Text) (ss : List Spot) : Doc :=
  .list ((((Pr.init.lparen o ss).kw o ss w).nested o (instrSpots ss)).rparen? o ss).docs

/-- module.rs:117-127: the indexes of an element list; the first is separated only if something came before. -/
def fmtIndexes (o : FmtOpts) (xs : List Spot) (p : Pr) : Pr :=
  xs.foldl (fun p s => p.part o (if p.docs.isEmpty then [] else [.space]) s) p

/-- module.rs:128-131: the reference type; pending trivia is lost. -/
def fmtRefType (o : FmtOpts) (x : Option Spot) (p : Pr) : Pr :=
  match x with
  | some s => ⟨p.docs ++ [.text s.g.text], afterToken o s.after⟩
  | none => p

/-- module.rs:109-149. -/
def fmtElemList (o : FmtOpts) (ss : List Spot) : Doc :=
  let p := (fmtRefType o (tokSpot .REF_TYPE ss) (fmtIndexes o (nodeSpots .INDEX ss)
    (Pr.init.kw o ss t!"func"))).owns o (nodeSpots .ELEM_EXPR ss)
  .list (p.docs ++ p.triv)

/-- module.rs:151-177. -/
def fmtExport (o : FmtOpts) (ss : List Spot) : Doc :=
  (((Pr.init.lparen o ss).kw o ss t!"export").part? o [.space] (nodeSpot .NAME ss)).close

/-- module.rs:190-212 and 1262-1291 (`format_export_desc`): the keyword is printed as it is. -/
def fmtExportDesc (o : FmtOpts) (ss : List Spot) : Doc :=
  ((fmtInstrName o (tokSpot .KEYWORD ss) (Pr.init.lparen o ss)).part? o [.space] (nodeSpot .INDEX ss)).close

/-- module.rs:214-249. -/
def fmtImport (o : FmtOpts) (ss : List Spot) : Doc :=
  ((((Pr.init.lparen o ss).kw o ss t!"import").part? o [.space] (nodeSpot .MODULE_NAME ss)).part? o [.space]
    (nodeSpot .NAME ss)).close

/-- module.rs:262-297 (`global`, `GLOBAL_TYPE`), 299-334 (`memory`, `MEMORY_TYPE`), 336-371 (`table`,
`TABLE_TYPE`), 373-408 (`func`, `TYPE_USE`) and 1080-1115 (`type`, `FUNC_TYPE`), which are otherwise equal. -/
def fmtNamed (o : FmtOpts) (w : Text) (k : Kind) (ss : List Spot) : Doc :=
  ((((Pr.init.lparen o ss).kw o ss w).tok? o .space (tokSpot .IDENT ss)).part? o [.space] (nodeSpot k ss)).close

/-- module.rs:416-451. -/
def fmtLocal (o : FmtOpts) (ss : List Spot) : Doc :=
  ((((Pr.init.lparen o ss).kw o ss t!"local").tok? o .space (tokSpot .IDENT ss)).parts o [.space]
    (nodeSpots .VAL_TYPE ss)).close

/-- module.rs:453-479 (`memory`), 979-1005 (`start`) and 1163-1189 (`table`), which are otherwise equal. -/
def fmtUse (o : FmtOpts) (w : Text) (ss : List Spot) : Doc :=
  (((Pr.init.lparen o ss).kw o ss w).part? o [.space] (nodeSpot .INDEX ss)).close

/-- The element is a module field (`ModuleField::can_cast`, `/repo/crates/syntax/src/ast/module.rs:1019-1036`). -/
def Green.isField (g : Green) : Bool :=
  g.isNodeOf .MODULE_FIELD_DATA || g.isNodeOf .MODULE_FIELD_ELEM || g.isNodeOf .MODULE_FIELD_EXPORT ||
  g.isNodeOf .MODULE_FIELD_FUNC || g.isNodeOf .MODULE_FIELD_GLOBAL || g.isNodeOf .MODULE_FIELD_IMPORT ||
  g.isNodeOf .MODULE_FIELD_MEMORY || g.isNodeOf .MODULE_FIELD_START || g.isNodeOf .MODULE_FIELD_TABLE ||
  g.isNodeOf .MODULE_FIELD_TYPE

/-- module.rs:504-518: the fields of a module; ignored ones keep their text. -/
def fmtFields (o : FmtOpts) (before : List Green) (xs : List Spot) (p : Pr) : Pr :=
  xs.foldl (fun p s =>
    ⟨p.docs ++ sepOr [.hardLine] p.triv ++
      (if shouldIgnore o s.before before then reflow s.g.text else [s.d]), afterNode o s.after⟩) p

/-- module.rs:481-525; `before` are the siblings before the module, nearest first. -/
def fmtModule (o : FmtOpts) (before : List Green) (ss : List Spot) : Doc :=
  let p := ((Pr.init.lparen o ss).kw o ss t!"module").tok? o .space (tokSpot .IDENT ss)
  let q := fmtFields o before (ss.filter fun s => s.g.isField) ⟨[], p.triv⟩
  Pr.close ⟨p.docs ++ [.nest o.indent (.list q.docs)], q.triv⟩

/-- module.rs:544-602. -/
def fmtFieldData (o : FmtOpts) (ss : List Spot) : Doc :=
  ((((((Pr.init.lparen o ss).kw o ss t!"data").tok? o .space (tokSpot .IDENT ss)).part? o [.space]
    (nodeSpot .MEM_USE ss)).own? o (nodeSpot .OFFSET ss)).toks o .softLine (tokSpots .STRING ss)).close

/-- module.rs:604-671. -/
def fmtFieldElem (o : FmtOpts) (ss : List Spot) : Doc :=
  let p := ((Pr.init.lparen o ss).kw o ss t!"elem").tok? o .space (tokSpot .IDENT ss)
  let p := p.tokAs? o .space t!"declare" (wordSpot t!"declare" ss)
  (((p.part? o [.space] (nodeSpot .TABLE_USE ss)).own? o (nodeSpot .OFFSET ss)).part? o [.space]
    (nodeSpot .ELEM_LIST ss)).close

/-- The element is an export descriptor (`ExportDesc::can_cast`). -/
def Green.isExportDesc (g : Green) : Bool :=
  g.isNodeOf .EXPORT_DESC_FUNC || g.isNodeOf .EXPORT_DESC_GLOBAL || g.isNodeOf .EXPORT_DESC_MEMORY ||
  g.isNodeOf .EXPORT_DESC_TABLE

/-- module.rs:673-708. -/
def fmtFieldExport (o : FmtOpts) (ss : List Spot) : Doc :=
  ((((Pr.init.lparen o ss).kw o ss t!"export").part? o [.space] (nodeSpot .NAME ss)).part? o [.space]
    (ss.find? fun s => s.g.isExportDesc)).close

/-- module.rs:763-781: the first of several parts is separated by `sep`, the others by a blank. -/
def Pr.firstParts (o : FmtOpts) (sep : List Doc) (xs : List Spot) (p : Pr) : Pr :=
  match xs with
  | [] => p
  | s :: rest => (p.part o sep s).parts o [.space] rest

/-- module.rs:750-762: the type of a function. -/
def fmtFuncTypeUse (o : FmtOpts) (x : Option Spot) (p : Pr) : Pr :=
  match x with
  | some s => p.part o [if s.g.hasTok .KEYWORD then .space else .nest o.indent .softLine] s
  | none => p

/-- module.rs:710-799. -/
def fmtFieldFunc (o : FmtOpts) (ss : List Spot) : Doc :=
  let p := ((Pr.init.lparen o ss).kw o ss t!"func").tok? o .space (tokSpot .IDENT ss)
  let p := (p.part? o [.space] (nodeSpot .IMPORT ss)).parts o [.space] (nodeSpots .EXPORT ss)
  (((fmtFuncTypeUse o (nodeSpot .TYPE_USE ss) p).firstParts o [.nest o.indent .softLine]
    (nodeSpots .LOCAL ss)).nested o (instrSpots ss)).close

/-- module.rs:801-867. -/
def fmtFieldGlobal (o : FmtOpts) (ss : List Spot) : Doc :=
  let p := ((Pr.init.lparen o ss).kw o ss t!"global").tok? o .space (tokSpot .IDENT ss)
  ((((p.part? o [.space] (nodeSpot .IMPORT ss)).part? o [.space] (nodeSpot .EXPORT ss)).part? o [.space]
    (nodeSpot .GLOBAL_TYPE ss)).nested o (instrSpots ss)).close

/-- The element is an import descriptor (`ImportDesc::can_cast`). -/
def Green.isImportDesc (g : Green) : Bool :=
  g.isNodeOf .IMPORT_DESC_GLOBAL_TYPE || g.isNodeOf .IMPORT_DESC_MEMORY_TYPE || g.isNodeOf .IMPORT_DESC_TABLE_TYPE ||
  g.isNodeOf .IMPORT_DESC_TYPE_USE

/-- module.rs:869-913. -/
def fmtFieldImport (o : FmtOpts) (ss : List Spot) : Doc :=
  (((((Pr.init.lparen o ss).kw o ss t!"import").part? o [.space] (nodeSpot .MODULE_NAME ss)).part? o [.space]
    (nodeSpot .NAME ss)).part? o [.space] (ss.find? fun s => s.g.isImportDesc)).close

/-- module.rs:915-977. -/
def fmtFieldMemory (o : FmtOpts) (ss : List Spot) : Doc :=
  let p := ((Pr.init.lparen o ss).kw o ss t!"memory").tok? o .space (tokSpot .IDENT ss)
  ((((p.part? o [.space] (nodeSpot .IMPORT ss)).part? o [.space] (nodeSpot .EXPORT ss)).part? o [.space]
    (nodeSpot .MEMORY_TYPE ss)).part? o [.space] (nodeSpot .DATA ss)).close

/-- module.rs:1007-1078. -/
def fmtFieldTable (o : FmtOpts) (ss : List Spot) : Doc :=
  let p := ((Pr.init.lparen o ss).kw o ss t!"table").tok? o .space (tokSpot .IDENT ss)
  (((((p.part? o [.space] (nodeSpot .IMPORT ss)).part? o [.space] (nodeSpot .EXPORT ss)).part? o [.space]
    (nodeSpot .TABLE_TYPE ss)).tok? o .space (tokSpot .REF_TYPE ss)).part? o [.space] (nodeSpot .ELEM ss)).close

/-- module.rs:1219-1228 and 1238-1247: the first parameter or result of a type use; `lp` says that the node has
an opening parenthesis of its own (if it has none, pending trivia is lost). -/
def fmtUseFirst (o : FmtOpts) (sep : Doc) (lp : Bool) (s : Spot) (p : Pr) : Pr :=
  ⟨p.docs ++ (if p.triv.isEmpty && !p.docs.isEmpty then [sep] else if lp then p.triv else []) ++ [s.d],
    afterNode o s.after⟩

/-- module.rs:1219-1237 and 1238-1256. -/
def fmtUseParts (o : FmtOpts) (sep : Doc) (lp : Bool) (xs : List Spot) (p : Pr) : Pr :=
  match xs with
  | [] => p
  | s :: rest => (fmtUseFirst o sep lp s p).parts o [.space] rest

/-- module.rs:1191-1260. -/
def fmtTypeUse (o : FmtOpts) (ss : List Spot) : Doc :=
  let lp := (tokSpot .L_PAREN ss).isSome
  let p := (((Pr.init.lparen o ss).kw o ss t!"type").part? o [.space] (nodeSpot .INDEX ss)).rparen? o ss
  .list (fmtUseParts o .space lp (nodeSpots .RESULT ss)
    (fmtUseParts o (.nest o.indent .softLine) lp (nodeSpots .PARAM ss) p)).docs

/-! ### mod.rs -/

/-- mod.rs:95-136: the documents of one child of the root. -/
def fmtRootItem (o : FmtOpts) (s : Spot) : List Doc :=
  match s.g with
  | .node k _ =>
    if shouldIgnore o s.before [] then reflow s.g.text else if k == .MODULE then [s.d] else []
  | .tok .LINE_COMMENT t => [textOr (formatLineComment o t)]
  | .tok .BLOCK_COMMENT t => [textOr (formatBlockComment o t)]
  | .tok .WHITESPACE t =>
    if !s.before.isEmpty && !s.after.isEmpty then
      match newlineCount t with
      | 0 => if s.before.head?.any fun g => g.kind == .LINE_COMMENT then [.hardLine] else [.space]
      | 1 => [.hardLine]
      | _ => [.emptyLine, .hardLine]
    else []
  | .tok _ t => [.text t]

/-- mod.rs:89-141. -/
def fmtRoot (o : FmtOpts) (ss : List Spot) : Doc := .list (ss.flatMap (fmtRootItem o) ++ [.hardLine])

/-- mod.rs:23-83 (`format_node`): the document of a node, from its children and their documents.  Kinds without
a node class have no document (`None`); the model gives them `nil`. -/
def fmtNode (o : FmtOpts) (before : List Green) (k : Kind) (ss : List Spot) : Doc :=
  match k with
  | .MODULE_NAME => fmtText ss
  | .NAME => fmtText ss
  | .VAL_TYPE => fmtText ss
  | .FUNC_TYPE => fmtFuncType o ss
  | .PARAM => fmtParam o ss
  | .RESULT => fmtResult o ss
  | .TABLE_TYPE => fmtTableType o ss
  | .MEMORY_TYPE => fmtMemoryType ss
  | .GLOBAL_TYPE => fmtGlobalType o ss
  | .BLOCK_TYPE => fmtBlockType ss
  | .PLAIN_INSTR => fmtPlainInstr o ss
  | .BLOCK_BLOCK => fmtBlockLike o t!"block" ss
  | .BLOCK_LOOP => fmtBlockLike o t!"loop" ss
  | .BLOCK_IF => fmtBlockIf o ss
  | .BLOCK_IF_THEN => fmtBranch o t!"then" ss
  | .BLOCK_IF_ELSE => fmtBranch o t!"else" ss
  | .OPERAND => fmtOperand ss
  | .TYPE_USE => fmtTypeUse o ss
  | .LIMITS => fmtLimits o ss
  | .IMPORT => fmtImport o ss
  | .EXPORT => fmtExport o ss
  | .IMPORT_DESC_TYPE_USE => fmtNamed o t!"func" .TYPE_USE ss
  | .IMPORT_DESC_TABLE_TYPE => fmtNamed o t!"table" .TABLE_TYPE ss
  | .IMPORT_DESC_MEMORY_TYPE => fmtNamed o t!"memory" .MEMORY_TYPE ss
  | .IMPORT_DESC_GLOBAL_TYPE => fmtNamed o t!"global" .GLOBAL_TYPE ss
  | .EXPORT_DESC_FUNC => fmtExportDesc o ss
  | .EXPORT_DESC_TABLE => fmtExportDesc o ss
  | .EXPORT_DESC_MEMORY => fmtExportDesc o ss
  | .EXPORT_DESC_GLOBAL => fmtExportDesc o ss
  | .INDEX => fmtText ss
  | .LOCAL => fmtLocal o ss
  | .MEM_USE => fmtUse o t!"memory" ss
  | .OFFSET => fmtExpr o t!"offset" ss
  | .ELEM => fmtElem o ss
  | .ELEM_LIST => fmtElemList o ss
  | .ELEM_EXPR => fmtExpr o t!"item" ss
  | .TABLE_USE => fmtUse o t!"table" ss
  | .DATA => fmtData o ss
  | .MODULE => fmtModule o before ss
  | .MODULE_FIELD_DATA => fmtFieldData o ss
  | .MODULE_FIELD_ELEM => fmtFieldElem o ss
  | .MODULE_FIELD_EXPORT => fmtFieldExport o ss
  | .MODULE_FIELD_FUNC => fmtFieldFunc o ss
  | .MODULE_FIELD_GLOBAL => fmtFieldGlobal o ss
  | .MODULE_FIELD_IMPORT => fmtFieldImport o ss
  | .MODULE_FIELD_MEMORY => fmtFieldMemory o ss
  | .MODULE_FIELD_START => fmtUse o t!"start" ss
  | .MODULE_FIELD_TABLE => fmtFieldTable o ss
  | .MODULE_FIELD_TYPE => fmtNamed o t!"type" .FUNC_TYPE ss
  | .ROOT => fmtRoot o ss
  | _ => .nil

mutual
/-- The document of an element (`DocGen::doc`); `before` are the siblings before it, nearest first.  The Rust
printers call `doc` on the children they select; the model computes the documents of all children first. -/
def fmtDoc (o : FmtOpts) (before : List Green) : Green → Doc
  | .tok _ t => .text t
  | .node k cs => fmtNode o before k (fmtKids o [] cs)
/-- The children of a node with their documents and siblings. -/
def fmtKids (o : FmtOpts) (before : List Green) : List Green → List Spot
  | [] => []
  | g :: gs => ⟨g, fmtDoc o before g, before, gs⟩ :: fmtKids o (g :: before) gs
end

/-- lib.rs:17-20 (`format`): the document that `tiny_pretty::print` gets. -/
def format (o : FmtOpts) (root : Green) : Doc := fmtDoc o [] root

end Verif
