import Verif.Model.Nav
/-!
Semantic tokens: `/repo/crates/service/src/features/semantic_tokens.rs` and the part of
`/repo/crates/service/src/lib.rs` that negotiates the token types.
-/
namespace Verif

/-- semantic_tokens.rs:187-198 (`SemanticTokenKind`). -/
inductive TokenClass where
  | type | param | var | func | keyword | comment | string | number | op
  deriving DecidableEq, Repr

/-- lib.rs:66-84: the class a token type of the client stands for; the constants of `lsp_types::SemanticTokenType`
are the texts below. -/
def classOfType (t : Text) : Option TokenClass :=
  if t == t!"type" then some .type
  else if t == t!"parameter" then some .param
  else if t == t!"variable" then some .var
  else if t == t!"function" then some .func
  else if t == t!"keyword" then some .keyword
  else if t == t!"comment" then some .comment
  else if t == t!"string" then some .string
  else if t == t!"number" then some .number
  else if t == t!"operator" then some .op
  else none

/-- `IndexMap::insert`: an existing key keeps its place and gets the new value, a new key is appended. -/
def insertKind (m : List (TokenClass × Text)) (k : TokenClass) (v : Text) : List (TokenClass × Text) :=
  if m.any fun p => p.1 == k then m.map fun p => if p.1 == k then (k, v) else p else m ++ [(k, v)]

/-- lib.rs:59-86: the map from classes to token types built from the client's list. -/
def kindsMap (types : List Text) : List (TokenClass × Text) :=
  types.foldl (fun m t => match classOfType t with | some k => insertKind m k t | none => m) []

/-- lib.rs:48-51: the part of `LanguageService` that requests about tokens read. -/
structure TokenService where
  kinds : List TokenClass
  deriving DecidableEq, Repr

/-- `LanguageService::default()`. -/
def TokenService.default : TokenService := ⟨[]⟩

/-- lib.rs:58-87, 142-145 (`initialize`): the state after the request and the legend of the answer.  `caps` are the
token types of the client's `textDocument.semanticTokens` capability, `none` if it has none: then the state is left
alone.  The rest of the answer is constant and left out. -/
def TokenService.initialize (svc : TokenService) (caps : Option (List Text)) : TokenService × List Text :=
  match caps with
  | some types => (⟨(kindsMap types).map (·.1)⟩, (kindsMap types).map (·.2))
  | none => (svc, [])

/-- `/repo/crates/service/src/features/mod.rs:47-56` (`is_call`). -/
def isCall (n : Red) : Bool :=
  n.childToks.any fun t =>
    t.kind == .INSTR_NAME && (t.text == t!"call" || t.text == t!"ref.func" || t.text == t!"return_call")

/-- semantic_tokens.rs:121-127, 148-157: the node below which an index means a function. -/
def takesFunc (n : Red) : Bool := isCall n || n.kind == .MODULE_FIELD_START || n.kind == .EXPORT_DESC_FUNC

/-- semantic_tokens.rs:129-134: the node has an instruction name that starts with `local.`. -/
def isLocalInstr (n : Red) : Bool := (n.token .INSTR_NAME).any fun t => t!"local.".isPrefixOf t.text

/-- semantic_tokens.rs:110-184 (`token_type`): the class of a token, before it is looked up in the negotiated
classes. -/
def tokenClass (t : SymbolTable) (tok : Tok) : Option TokenClass :=
  match tok.kind with
  | .NUM_TYPE | .VEC_TYPE | .REF_TYPE => some .type
  | .KEYWORD => some .keyword
  | .INT | .UNSIGNED_INT =>
    let grand := tok.parent.bind Red.parent
    if grand.any takesFunc then some .func
    else
      match (grand.filter isLocalInstr).bind fun _ => tok.parent with
      | some operand => if (t.findParamDef operand.key).isSome then some .param else some .var
      | none => some .number
  | .FLOAT => some .number
  | .IDENT =>
    if (tok.parent.bind Red.parent).any takesFunc || tok.parent.any fun p => p.kind == .MODULE_FIELD_FUNC then some .func
    else if (tok.parent.any fun p => p.kind == .PARAM) || (tok.parent.bind fun p => t.findParamDef p.key).isSome then
      some .param
    else some .var
  | .STRING => some .string
  | .LINE_COMMENT | .BLOCK_COMMENT => some .comment
  | .INSTR_NAME => some .op
  | _ => none

/-- semantic_tokens.rs:110-184: the number sent for a token, `IndexSet::get_index_of` of its class. -/
def tokenType (kinds : List TokenClass) (t : SymbolTable) (tok : Tok) : Option Nat :=
  (tokenClass t tok).bind fun c => kinds.findIdx? (· == c)

/-- `lsp_types::SemanticToken`; the modifiers are always `0` and left out. -/
structure SemTok where
  deltaLine : Nat
  deltaStart : Nat
  length : Nat
  type : Nat
  deriving DecidableEq, Repr

/-- The subtraction of two `u32`: below zero it panics in a build with overflow checks (`dbg`) and wraps around
otherwise. -/
def subU32 (dbg : Bool) (a b : Nat) : Ans Nat :=
  if b ≤ a then .done (a - b) else if dbg then .panic else .done (a + 2 ^ 32 - b)

/-- `token.text().chars().filter(|c| *c == '\n').count()`. -/
def countLines (t : Text) : Nat := (t.filter fun c => c == '\n').length

/-- semantic_tokens.rs:65-108 (`build_tokens`); `dl` and `ps` are `delta_line` and `prev_start`. -/
def buildTokens (dbg : Bool) (src : Text) (ty : Tok → Option Nat) : List Tok → Nat → Nat → Ans (List SemTok)
  | [], _, _ => .done []
  | t :: ts, dl, ps =>
    if t.kind = .WHITESPACE then
      if 0 < countLines t.text then buildTokens dbg src ty ts (dl + countLines t.text) 0
      else buildTokens dbg src ty ts dl ps
    else
      match ty t with
      | none => buildTokens dbg src ty ts dl ps
      | some k =>
        let lines := if t.kind = .BLOCK_COMMENT then countLines t.text else 0
        (Ans.ofOption (lineCol src t.off)).bind fun p =>
          (subU32 dbg p.character ps).bind fun d =>
            (buildTokens dbg src ty ts lines (if 0 < lines then 0 else p.character)).bind fun rest =>
              .done (⟨dl, d, bytes t.text, k⟩ :: rest)

/-- semantic_tokens.rs:12-32 (`semantic_tokens_full`).  The answer of the code is always `Some`. -/
def semanticTokensFull (dbg : Bool) (src : Text) (root : Red) (svc : TokenService) : Ans (List SemTok) :=
  buildTokens dbg src (tokenType svc.kinds (symbolTable root)) root.tokens 0 0

/-- semantic_tokens.rs:46-51: the tokens of a range. -/
def tokensBetween (root : Red) (start stop : Nat) : List Tok :=
  (root.tokens.dropWhile fun t => t.stop ≤ start).takeWhile fun t => t.off < stop

/-- semantic_tokens.rs:34-63 (`semantic_tokens_range`). -/
def semanticTokensRange (dbg : Bool) (src : Text) (root : Red) (svc : TokenService) (r : Range) :
    Ans (Option (List SemTok)) :=
  match lspPosToRowan src r.start, lspPosToRowan src r.stop with
  | some a, some b =>
    let ts := tokensBetween root a b
    let build := fun (p : Pos) =>
      (buildTokens dbg src (tokenType svc.kinds (symbolTable root)) ts p.line p.character).bind fun d => .done (some d)
    match ts.head? with
    | some t => (Ans.ofOption (lineCol src t.off)).bind build
    | none => build ⟨0, 0⟩
  | _, _ => .done none

end Verif
