import Verif.Model.Server
/-!
Specification: what a client may expect of the server's messages.
-/
namespace Verif.Spec

variable {A R : Type}

/-- The ids of the requests among messages, in order. -/
def requestIds (ms : List (LspMsg A)) : List ReqId :=
  ms.filterMap fun | .request id _ _ => some id | _ => none

/-- The id a message to the client is a response for. -/
def responseId : Sent R → Option ReqId
  | .answer id _ => some id
  | .error id _ => some id
  | .bye id => some id
  | .publish _ _ => none

/-- The ids of the responses, in order. -/
def responseIds (out : List (Sent R)) : List ReqId := out.filterMap responseId

/-- The text of a document after a notification, if that sets it: opening it gives a text, and of full changes made one after
the other the last one is left. -/
def newText : Note → Option (Text × Text)
  | .didOpen uri text => some (uri, text)
  | .didChange uri changes => changes.getLast?.map fun t => (uri, t)
  | _ => none

/-- The last text the client has sent for a document; `past` are the messages so far, the newest first. -/
def currentText (past : List (LspMsg A)) (uri : Text) : Option Text :=
  past.findSome? fun
    | .notification n => (newText n).bind fun d => if d.1 = uri then some d.2 else none
    | _ => none

/-- The response to a request that is a reply of the service. -/
def asResponse (id : ReqId) : Reply R → List (Sent R)
  | .result r => [.answer id r]
  | .refused e => [.error id e]
  | .panicked => []

/-- The responses a client may expect: one for each request, in order, that is computed from the texts it has sent so far. -/
def expected (serve : (Text → Option Text) → Text → A → Reply R) (past : List (LspMsg A)) : List (LspMsg A) → List (Sent R)
  | [] => []
  | m :: ms =>
    (match m with
      | .request id method (some a) => asResponse id (serve (currentText past) method a)
      | _ => []) ++ expected serve (m :: past) ms

/-- The requests a client may send by what the server has announced: `initialize` lists these features
(lib.rs:90-160). -/
def announced (method : Text) : Prop :=
  method ∈ [t!"textDocument/prepareCallHierarchy", t!"callHierarchy/incomingCalls", t!"callHierarchy/outgoingCalls",
    t!"textDocument/codeAction", t!"textDocument/completion", t!"textDocument/definition", t!"textDocument/diagnostic",
    t!"textDocument/typeDefinition", t!"textDocument/declaration", t!"textDocument/formatting",
    t!"textDocument/rangeFormatting", t!"textDocument/documentSymbol", t!"textDocument/foldingRange",
    t!"textDocument/hover", t!"textDocument/inlayHint", t!"textDocument/references", t!"textDocument/rename",
    t!"textDocument/prepareRename", t!"textDocument/selectionRange", t!"textDocument/semanticTokens/full",
    t!"textDocument/semanticTokens/range"]

/-- Messages of an ordinary session: announced requests with readable parameters, notifications with at most one change,
no end of the session. -/
def Ordinary : LspMsg A → Prop
  | .request _ method args => announced method ∧ args.isSome
  | .notification (.didChange _ changes) => changes.length ≤ 1
  | .notification .exit => False
  | _ => True

end Verif.Spec
