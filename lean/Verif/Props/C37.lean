import Verif.Lemmas.Server
import Verif.Props.C03
import Verif.Props.C45
/-!
C37: every request gets exactly one response, with its id, in order.

Full statement (false of the code): whatever the messages of a session that is not ended by the client, and whatever the
service answers, the ids of the responses are those of the requests, in order.
-/
namespace Verif
open P Spec

/-- No message of the session ends it: no `shutdown` and no `exit`. -/
def Spec.Open {A : Type} : LspMsg A → Prop
  | .request _ method _ => method ≠ t!"shutdown"
  | .notification .exit => False
  | _ => True

/-- The full statement of C37.  The service is one that does not panic. -/
def C37_statement : Prop :=
  ∀ (A R : Type) (dbg pull : Bool) (serve : (Text → Option Text) → Text → A → Reply R) (ms : List (LspMsg A)),
    (∀ m ∈ ms, Open m) → (∀ texts method a, serve texts method a ≠ .panicked) →
    responseIds ((Server.init pull).runLoop dbg serve ms).2 = requestIds ms

/-- The code violates C37: a request of a method it does not know (server.rs:346), here for the highlights of a document, is
dropped, not even refused with `MethodNotFound`. -/
theorem C37_false : ¬ C37_statement := by
  intro h
  have := h Unit Unit false true (fun _ _ _ => .result ()) [.request (.num 1) t!"textDocument/documentHighlight" (some ())]
    (by intro m hm; simp only [List.mem_singleton] at hm; subst hm; simp only [Open]; decide) (by intros; simp)
  revert this
  decide +kernel

/-- It does so too if the method is known and the parameters are not readable (server.rs:61), which should be refused with
`InvalidParams`. -/
theorem C37_params_false : ∃ (ms : List (LspMsg Unit)), (∀ m ∈ ms, Open m) ∧ (∀ id method args, .request id method args ∈ ms → announced method) ∧
    responseIds ((Server.init true).runLoop false (fun _ _ _ => Reply.result ()) ms).2 ≠ requestIds ms := by
  refine ⟨[.request (.num 1) t!"textDocument/hover" none], ?_, ?_, by decide +kernel⟩
  · intro m hm; simp only [List.mem_singleton] at hm; subst hm; simp only [Open]; decide
  · intro id method args hm
    simp only [List.mem_singleton, LspMsg.request.injEq] at hm
    rw [hm.2.1]; unfold announced; decide +kernel

/-- Whatever the messages and the service: the ids of the responses are among those of the requests, in order and no more
often; notifications and responses get no response. -/
theorem C37_at_most {A R : Type} (dbg pull : Bool) (serve : (Text → Option Text) → Text → A → Reply R) (ms : List (LspMsg A)) :
    (responseIds ((Server.init pull).runLoop dbg serve ms).2).Sublist (requestIds ms) := run_ids

/-- Texts the analysis does not panic on: see C03 and C45. -/
def Harmless (dbg : Bool) (text : Text) : Prop := (dbg = true → ¬ TwiceUnclosed text) ∧
  (¬ BadQuote text ∨ ∃ g dropped, parse dbg text = .tree g [] dropped)

theorem harmless_done {dbg : Bool} {text : Text} (h : Harmless dbg text) : ∃ ds, fileDiagnostics dbg text = .done ds := by
  obtain ⟨g, errs, dropped, hp⟩ := C03_partial dbg text h.1
  unfold fileDiagnostics
  rw [hp]
  refine C45_partial dbg text g errs dropped (h.2.imp_right ?_) hp
  rintro ⟨g', d', h'⟩
  rw [hp] at h'
  cases h'; rfl

/-- C37 for ordinary sessions: if all requests are of announced methods with readable parameters, no change notification has
more than one change, no text that is checked is one the analysis can panic on, and no handler panics on the texts the
client has sent before the request, then each request has its response, with its id, in order, and it is the service's
reply to the request for these texts; the loop is still running.  Missing for the full claim: unknown methods and
unreadable parameters, where it is false (`C37_false`, `C37_params_false`). -/
theorem C37_partial {A R : Type} (dbg pull : Bool) (serve : (Text → Option Text) → Text → A → Reply R) (ms : List (LspMsg A))
    (ho : ∀ m ∈ ms, Ordinary m)
    (ht : pull = true ∨ ∀ n uri text, .notification n ∈ ms → newText n = some (uri, text) → Harmless dbg text)
    (hs : ∀ before id method a after, ms = before ++ .request id method (some a) :: after →
      serve (currentText before.reverse) method a ≠ .panicked) :
    ((Server.init pull).runLoop dbg serve ms).2.filter (fun o => (responseId o).isSome) = expected serve [] ms ∧
    responseIds ((Server.init pull).runLoop dbg serve ms).2 = requestIds ms ∧
    ((Server.init pull).runLoop dbg serve ms).1.phase = .running := by
  have h := run_ordinary (dbg := dbg) (serve := serve) (ms := ms) (past := []) (s := Server.init pull) (fun u => rfl) rfl ho
    (fun n uri text hm hn => by
      rcases ht with h | h
      · exact .inl h
      · exact .inr (harmless_done (h n uri text hm hn)))
    (fun before id method a after e => by rw [List.append_nil]; exact hs before id method a after e)
  refine ⟨h.1, ?_, h.2.1⟩
  have e : ∀ out : List (Sent R), responseIds out = (responsesOf out).filterMap responseId := by
    intro out
    unfold responseIds responsesOf
    rw [List.filterMap_filter]
    congr 1
    funext o
    cases responseId o <;> rfl
  rw [e, h.1]
  have key : ∀ (ms past : List (LspMsg A)), (∀ m ∈ ms, Ordinary m) →
      (∀ before id method a after, ms = before ++ .request id method (some a) :: after → serve (currentText (before.reverse ++ past)) method a ≠ .panicked) →
      (expected serve past ms).filterMap responseId = requestIds ms := by
    intro ms
    induction ms with
    | nil => intros; rfl
    | cons m ms ih =>
      intro past ho hs
      have h2 := ih (m :: past) (fun x hx => ho x (List.mem_cons_of_mem _ hx)) (fun before id method a after e => by
        have := hs (m :: before) id method a after (by simp [e])
        simpa using this)
      unfold expected
      rw [List.filterMap_append, h2]
      cases m with
      | request id method args =>
        have h4 : announced method ∧ args.isSome := ho (.request id method args) (by simp)
        obtain ⟨a, rfl⟩ := Option.isSome_iff_exists.mp h4.2
        have h3 := hs [] id method a ms rfl
        simp only [List.reverse_nil, List.nil_append] at h3
        simp only
        cases hr : serve (currentText past) method a with
        | panicked => exact absurd hr h3
        | _ => rfl
      | _ => rfl
  exact key ms [] ho (fun before id method a after e => by rw [List.append_nil]; exact hs before id method a after e)

/-- Not vacuous: a document is opened, a hover is asked for, the document is changed, and asked for again; the service here
answers with the text it has. -/
example : ((Server.init true).runLoop false (fun texts _ (uri : Text) => Reply.result (texts uri))
    [.notification (.didOpen t!"a" t!"(module)"), .request (.num 1) t!"textDocument/hover" (some t!"a"),
     .notification (.didChange t!"a" [t!"(module $m)"]), .request (.num 2) t!"textDocument/hover" (some t!"a")]).2.map
      (fun | .answer id r => (some id, r) | _ => (none, none)) =
    [(some (.num 1), some t!"(module)"), (some (.num 2), some t!"(module $m)")] := by decide +kernel

/-- And the hypotheses can be met by a client that does not pull. -/
example : Harmless true t!"(module)" := by
  refine ⟨fun _ h => absurd (twice_two h).2 (by decide), ?_⟩
  · refine .inl fun h => ?_
    have : '"' ∈ t!"(module)" := by
      obtain ⟨a, b, e, _⟩ := h
      rw [e]; simp
    revert this; decide +kernel

end Verif
