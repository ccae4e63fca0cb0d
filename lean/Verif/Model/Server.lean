import Verif.Model.Check
import Verif.Model.Grammar
/-!
Model of the server loop, `/repo/crates/server/src/server.rs`.

Not modelled: JSON texts (a message comes with its parameters already read, or with none if they cannot be read as those of
its method), the transport, the initial handshake of `lsp-server` (server.rs:30-41 but for the capability that is
remembered), failures to send.  The service's answers are a parameter: every theorem holds for all of them; they are a
function of the current texts of the documents, see C36.
-/
namespace Verif

/-- `lsp_server::RequestId`. -/
inductive ReqId where
  | num (n : Int)
  | str (s : Text)
  deriving DecidableEq, Repr

/-- The notifications the loop knows, with their parameters: `DidOpenTextDocument`, `DidChangeTextDocument` (of its changes
the texts; the server announces full synchronisation, lib.rs:155, so that there are no ranges), `DidCloseTextDocument`. -/
inductive Note where
  | didOpen (uri : Text) (text : Text)
  | didChange (uri : Text) (changes : List Text)
  | didClose (uri : Text)
  | exit
  /-- another method, or unreadable parameters -/
  | unknown
  deriving DecidableEq, Repr

/-- `lsp_server::Message`; `args` are the parameters of a request, `none` if they cannot be read. -/
inductive LspMsg (A : Type) where
  | request (id : ReqId) (method : Text) (args : Option A)
  | notification (n : Note)
  | response

/-- What the handler of a request does: answers, refuses (`rename` only, server.rs:288-298), or panics. -/
inductive Reply (R : Type) where
  | result (r : R)
  | refused (message : Text)
  | panicked

/-- What the server sends. -/
inductive Sent (R : Type) where
  /-- `Response { id, result: Some(..), error: None }` -/
  | answer (id : ReqId) (r : R)
  /-- `Response { id, result: None, error: Some(..) }` -/
  | error (id : ReqId) (message : Text)
  /-- the empty answer to `shutdown` -/
  | bye (id : ReqId)
  /-- `textDocument/publishDiagnostics` -/
  | publish (uri : Text) (ds : List Diag)

/-- Whether the loop is running; it ends when `exit` comes (`lsp-server` reads no further), when anything else comes after
`shutdown`, and when a handler panics. -/
inductive Phase where
  | running
  /-- inside `handle_shutdown`, waiting for `exit` -/
  | closing
  | ended
  | crashed
  deriving DecidableEq, Repr

/-- `Server` (server.rs:21-25): the texts committed to the service, and the capability. -/
structure Server where
  docs : List (Text × Text)
  pull : Bool
  phase : Phase

/-- server.rs:28-41: the state after the handshake. -/
def Server.init (pull : Bool) : Server := ⟨[], pull, .running⟩

/-- The text of a document, if there is one (`FilesCtx::source`, which panics otherwise). -/
def Server.text (s : Server) (uri : Text) : Option Text := (s.docs.find? fun d => d.1 == uri).map (·.2)

/-- lib.rs:172-175 (`commit`). -/
def Server.commit (s : Server) (uri text : Text) : Server := { s with docs := (uri, text) :: s.docs.filter fun d => d.1 != uri }

/-- The diagnostics of a text: files.rs:31-60 and checker/mod.rs:11-56. -/
def fileDiagnostics (dbg : Bool) (src : Text) : Ans (List Diag) :=
  match parse dbg src with
  | .tree g errs _ => diagnostics src (Red.root g) errs
  | _ => .panic

/-- server.rs:424-430 (`publish_diagnostics`): of the text the service has for the document; without one salsa panics. -/
def Server.publishDiagnostics {R : Type} (dbg : Bool) (s : Server) (uri : Text) : Server × List (Sent R) :=
  match s.text uri with
  | some text =>
    match fileDiagnostics dbg text with
    | .done ds => (s, [.publish uri ds])
    | .panic => ({ s with phase := .crashed }, [])
  | none => ({ s with phase := .crashed }, [])

/-- server.rs:378-389 and 391-405: commit, and publish unless the client pulls diagnostics. -/
def Server.update {R : Type} (dbg : Bool) (s : Server) (uri text : Text) : Server × List (Sent R) :=
  if s.pull then (s.commit uri text, []) else (s.commit uri text).publishDiagnostics dbg uri

/-- server.rs:350-371: the chain for notifications; 407-422 (`handle_did_close_text_document`). -/
def Server.notify {R : Type} (dbg : Bool) (s : Server) : Note → Server × List (Sent R)
  | .didOpen uri text => s.update dbg uri text
  | .didChange uri changes =>
    match changes.head? with
    | some text => s.update dbg uri text
    | none => (s, [])
  | .didClose uri => (s, [.publish uri []])
  | .exit => ({ s with phase := .ended }, [])
  | .unknown => (s, [])

/-- The methods of the chain of `cast_req`, server.rs:51-349, in order. -/
def requestMethods : List Text :=
  [t!"textDocument/prepareCallHierarchy", t!"callHierarchy/incomingCalls", t!"callHierarchy/outgoingCalls",
   t!"textDocument/codeAction", t!"textDocument/completion", t!"textDocument/diagnostic", t!"textDocument/foldingRange",
   t!"textDocument/formatting", t!"textDocument/rangeFormatting", t!"textDocument/definition",
   t!"textDocument/typeDefinition", t!"textDocument/declaration", t!"textDocument/hover", t!"textDocument/inlayHint",
   t!"textDocument/references", t!"textDocument/prepareRename", t!"textDocument/rename",
   t!"textDocument/selectionRange", t!"textDocument/semanticTokens/full", t!"textDocument/semanticTokens/range",
   t!"textDocument/documentSymbol"]

/-- `shutdown`, which `handle_shutdown` compares with. -/
def shutdownMethod : Text := t!"shutdown"

/-- One link of the chain, for instance server.rs:51-63, and the rest of it: the handler runs if the method is the one of the
link and the parameters can be read; with unreadable parameters the loop goes on with the next message; after the last
link too (server.rs:346-347). -/
def dispatch {A R : Type} (serve : (Text → Option Text) → Text → A → Reply R) (s : Server) (id : ReqId) (method : Text) (args : Option A) :
    List Text → Server × List (Sent R)
  | [] => (s, [])
  | m :: ms =>
    if method == m then
      match args with
      | none => (s, [])
      | some a =>
        match serve s.text m a with
        | .result r => (s, [.answer id r])
        | .refused e => (s, [.error id e])
        | .panicked => ({ s with phase := .crashed }, [])
    else dispatch serve s id method args ms

/-- One turn of the loop, server.rs:44-375. -/
def Server.step {A R : Type} (dbg : Bool) (serve : (Text → Option Text) → Text → A → Reply R) (s : Server) (m : LspMsg A) :
    Server × List (Sent R) :=
  match s.phase with
  | .running =>
    match m with
    | .request id method args =>
      if method == shutdownMethod then ({ s with phase := .closing }, [.bye id])
      else dispatch serve s id method args requestMethods
    | .notification n => s.notify dbg n
    | .response => (s, [])
  | .closing => ({ s with phase := .ended }, [])
  | .ended => (s, [])
  | .crashed => (s, [])

/-- The loop over the messages that come in: the state, and what is sent. -/
def Server.runLoop {A R : Type} (dbg : Bool) (serve : (Text → Option Text) → Text → A → Reply R) (s : Server) : List (LspMsg A) → Server × List (Sent R)
  | [] => (s, [])
  | m :: ms =>
    let (s1, o1) := s.step dbg serve m
    let (s2, o2) := s1.runLoop dbg serve ms
    (s2, o1 ++ o2)

end Verif
