import Verif.Props.C37
/-!
C38: published diagnostics describe the latest text.

Full statement (false of the code): whatever has happened, as long as the loop is running, opening or changing a document
publishes the diagnostics of its new text and nothing else, closing it publishes the empty list, and nothing else publishes;
a client that pulls diagnostics is sent no diagnostics.
-/
namespace Verif
open P Spec

/-- What is to be sent for a notification: `new` is the text it gives a document. -/
def Spec.Published {R : Type} (dbg pull : Bool) (n : Note) (out : List (Sent R)) : Prop :=
  match newText n with
  | some (uri, text) => if pull then out = [] else ∃ ds, fileDiagnostics dbg text = .done ds ∧ out = [.publish uri ds]
  | none => match n with
    | .didClose uri => out = [.publish uri []]
    | _ => out = []

/-- The full statement of C38. -/
def C38_statement : Prop :=
  ∀ (A R : Type) (dbg pull : Bool) (serve : (Text → Option Text) → Text → A → Reply R) (ms : List (LspMsg A)) (n : Note),
    ((Server.init pull).runLoop dbg serve ms).1.phase = .running →
    Published dbg pull n (((Server.init pull).runLoop dbg serve ms).1.step dbg serve (.notification n)).2

/-- The code violates C38: of several changes in one notification it takes the first (server.rs:396), not the last; here the
change to `)` is published as if the document were empty. -/
theorem C38_false : ¬ C38_statement := by
  intro h
  have h1 := h Unit Unit false false (fun _ _ _ => .result ()) [] (.didChange t!"a" [t!"", t!"("]) rfl
  obtain ⟨ds, h2, h3⟩ : ∃ ds, fileDiagnostics false t!"(" = .done ds ∧
      (((Server.init false).runLoop false (fun _ _ (_ : Unit) => Reply.result ()) ([] : List (LspMsg Unit))).1.step false (fun _ _ (_ : Unit) => Reply.result ())
        (.notification (.didChange t!"a" [t!"", t!"("]))).2 = [.publish t!"a" ds] := h1
  have e1 : (match fileDiagnostics false t!"(" with | .done ds => ds.length | .panic => 0) = 1 := by decide +kernel
  have e2 : ((((Server.init false).runLoop false (fun _ _ (_ : Unit) => Reply.result ()) ([] : List (LspMsg Unit))).1.step false (fun _ _ (_ : Unit) => Reply.result ())
        (.notification (.didChange t!"a" [t!"", t!"("]))).2.map (fun | .publish _ ds => ds.length | _ => 0)) = [0] := by decide +kernel
  rw [h2] at e1
  simp only at e1
  rw [h3] at e2
  simp only [List.map_cons, List.map_nil, List.cons.injEq, and_true] at e2
  rw [e1] at e2
  cases e2

/-- C38 for notifications with at most one change, and texts the analysis does not panic on (see C03, C45).  Missing for the
full claim: several changes, and such texts; both false (`C38_false`, `C45_false`). -/
theorem C38_partial {A R : Type} (dbg pull : Bool) (serve : (Text → Option Text) → Text → A → Reply R) (ms : List (LspMsg A)) (n : Note)
    (h : ((Server.init pull).runLoop dbg serve ms).1.phase = .running)
    (ho : ∀ uri changes, n = .didChange uri changes → changes.length ≤ 1)
    (ht : pull = true ∨ ∀ uri text, newText n = some (uri, text) → Harmless dbg text) :
    Published dbg pull n (((Server.init pull).runLoop dbg serve ms).1.step dbg serve (.notification n)).2 := by
  have hp : ((Server.init pull).runLoop dbg serve ms).1.pull = pull := runLoop_pull
  generalize ((Server.init pull).runLoop dbg serve ms).1 = s at h hp
  have key : ∀ uri text, newText n = some (uri, text) →
      if pull then (s.update (R := R) dbg uri text).2 = [] else ∃ ds, fileDiagnostics dbg text = .done ds ∧ (s.update (R := R) dbg uri text).2 = [.publish uri ds] := by
    intro uri text hn
    cases pull with
    | true => exact update_pull hp
    | false =>
      have h1 := ht.resolve_left (by simp) uri text hn
      obtain ⟨ds, h2⟩ := harmless_done h1
      exact ⟨ds, h2, update_sent hp h2⟩
  unfold Server.step
  rw [h]
  cases n with
  | didOpen uri text => exact key uri text rfl
  | didChange uri changes =>
    cases changes with
    | nil => rfl
    | cons text rest =>
      have : rest = [] := by
        have := ho uri (text :: rest) rfl
        cases rest with
        | nil => rfl
        | cons _ _ => simp at this
      subst this
      exact key uri text rfl
  | didClose uri => rfl
  | exit => rfl
  | unknown => rfl

/-- Nothing else publishes: neither a request nor a response. -/
theorem C38_only {A R : Type} (dbg : Bool) (serve : (Text → Option Text) → Text → A → Reply R) (s : Server) (m : LspMsg A)
    (h : ∀ n, m ≠ .notification n) (uri : Text) (ds : List Diag) : .publish uri ds ∉ (s.step dbg serve m).2 := by
  have hd : ∀ id method args l, Sent.publish uri ds ∉ (dispatch serve s id method args l).2 := by
    intro id method args l
    induction l with
    | nil => simp [dispatch]
    | cons x l ih =>
      unfold dispatch
      split
      · split
        · simp
        · split <;> simp
      · exact ih
  unfold Server.step
  split
  · cases m with
    | request id method args =>
      simp only
      split
      · simp
      · exact hd _ _ _ _
    | notification n => exact absurd rfl (h n)
    | response => simp
  all_goals simp

/-- Not vacuous: after `(` was opened, a change to `(module)` and the close. -/
example : ((Server.init false).runLoop false (fun _ _ (_ : Unit) => Reply.result ())
    [.notification (.didOpen t!"a" t!"("), .notification (.didChange t!"a" [t!"(module)"]), .notification (.didClose t!"a")]).2.map
      (fun | .publish u ds => (u, ds.map (·.msg)) | _ => ([], [])) =
    [(t!"a", [.syn (.expStr t!"module")]), (t!"a", []), (t!"a", [])] := by decide +kernel

end Verif
