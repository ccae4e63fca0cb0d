import Verif.Spec.Server
/-!
Helper lemmas on the server loop.
-/
namespace Verif
open Spec

variable {A R : Type} {dbg : Bool} {serve : (Text → Option Text) → Text → A → Reply R}

theorem dispatch_not {s : Server} {id : ReqId} {method : Text} {args : Option A} : ∀ {ms : List Text}, method ∉ ms →
    dispatch serve s id method args ms = (s, [])
  | [], _ => rfl
  | m :: ms, h => by
    unfold dispatch
    rw [if_neg (by simp only [beq_iff_eq]; rintro rfl; exact h (by simp))]
    exact dispatch_not fun hm => h (List.mem_cons_of_mem _ hm)

theorem dispatch_mem {s : Server} {id : ReqId} {method : Text} {a : A} : ∀ {ms : List Text}, method ∈ ms →
    dispatch serve s id method (some a) ms =
      ((match serve s.text method a with | .panicked => { s with phase := .crashed } | _ => s), asResponse id (serve s.text method a))
  | m :: ms, h => by
    unfold dispatch
    by_cases he : method = m
    · subst he
      simp only [beq_self_eq_true, if_true]
      cases serve s.text method a <;> rfl
    · rw [if_neg (by simpa using he)]
      exact dispatch_mem ((List.mem_cons.mp h).resolve_left he)

theorem dispatch_none {s : Server} {id : ReqId} {method : Text} : ∀ {ms : List Text}, dispatch serve s id method none ms = (s, [])
  | [] => rfl
  | m :: ms => by
    unfold dispatch
    split
    · rfl
    · exact dispatch_none

theorem ids_asResponse {id : ReqId} {r : Reply R} : (responseIds (asResponse id r)).Sublist [id] := by
  cases r <;> simp [asResponse, responseIds, responseId]

theorem publish_ids {s : Server} {uri : Text} : responseIds (s.publishDiagnostics (R := R) dbg uri).2 = [] := by
  unfold Server.publishDiagnostics
  split
  · split <;> rfl
  · rfl

theorem update_ids {s : Server} {uri text : Text} : responseIds (s.update (R := R) dbg uri text).2 = [] := by
  unfold Server.update
  split
  · rfl
  · exact publish_ids

theorem notify_ids {s : Server} {n : Note} : responseIds (s.notify (R := R) dbg n).2 = [] := by
  cases n with
  | didOpen uri text => exact update_ids
  | didChange uri changes =>
    cases changes with
    | nil => rfl
    | cons text rest => exact update_ids
  | _ => rfl

theorem step_ids {s : Server} {m : LspMsg A} : (responseIds (s.step dbg serve m).2).Sublist (requestIds [m]) := by
  unfold Server.step
  split
  · cases m with
    | request id method args =>
      simp only
      split
      · exact List.Sublist.refl _
      · cases args with
        | none => rw [dispatch_none]; exact List.nil_sublist _
        | some a =>
          by_cases hm : method ∈ requestMethods
          · rw [dispatch_mem hm]; exact ids_asResponse
          · rw [dispatch_not hm]; exact List.nil_sublist _
    | notification n => simp only; rw [notify_ids]; exact List.nil_sublist _
    | response => exact List.nil_sublist _
  all_goals exact List.nil_sublist _

theorem run_ids : ∀ {ms : List (LspMsg A)} {s : Server}, (responseIds (s.runLoop dbg serve ms).2).Sublist (requestIds ms)
  | [], s => List.nil_sublist _
  | m :: ms, s => by
    have h1 : (s.runLoop dbg serve (m :: ms)).2 = (s.step dbg serve m).2 ++ ((s.step dbg serve m).1.runLoop dbg serve ms).2 := rfl
    have h2 : requestIds (m :: ms) = requestIds [m] ++ requestIds ms := by
      unfold requestIds; rw [← List.filterMap_append]; rfl
    rw [h1, h2]
    unfold responseIds
    rw [List.filterMap_append]
    exact step_ids.append run_ids

/-! ### The texts -/

theorem text_commit {s : Server} {uri text u : Text} : (s.commit uri text).text u = if uri = u then some text else s.text u := by
  unfold Server.commit Server.text
  rw [List.find?_cons]
  by_cases h : uri = u
  · subst h; simp
  · rw [if_neg h]
    simp only [beq_eq_false_iff_ne.mpr h]
    congr 1
    rw [List.find?_filter]
    congr 1
    funext d
    by_cases hd : d.1 = u
    · simp [hd, Ne.symm h]
    · simp [hd]

/-- The server has the texts that the client has sent. -/
def UpToDate (past : List (LspMsg A)) (s : Server) : Prop := ∀ u, s.text u = currentText past u

theorem upToDate_other {past : List (LspMsg A)} {s : Server} {m : LspMsg A} (h : UpToDate past s) (hm : ∀ n, m = .notification n → newText n = none) :
    UpToDate (m :: past) s := by
  intro u
  rw [h u]
  unfold currentText
  rw [List.findSome?_cons]
  cases m with
  | notification n => simp [hm n rfl]
  | _ => rfl

theorem upToDate_commit {past : List (LspMsg A)} {s : Server} {n : Note} {uri text : Text} (h : UpToDate past s) (hn : newText n = some (uri, text)) :
    UpToDate (.notification n :: past) (s.commit uri text) := by
  intro u
  rw [text_commit, h u]
  unfold currentText
  rw [List.findSome?_cons]
  simp only [hn, Option.bind_some]
  by_cases hu : uri = u
  · simp [hu]
  · simp [hu]

/-- The diagnostics of the text can be computed, or are not asked for. -/
def Checkable (dbg pull : Bool) (text : Text) : Prop := pull = true ∨ ∃ ds, fileDiagnostics dbg text = .done ds

theorem update_ok {s : Server} {uri text : Text} (h : Checkable dbg s.pull text) : (s.update (R := R) dbg uri text).1 = s.commit uri text := by
  unfold Server.update
  split
  · rfl
  · rcases h with h | ⟨ds, h⟩
    · contradiction
    · unfold Server.publishDiagnostics
      rw [text_commit, if_pos rfl]
      simp only [h]

theorem update_sent {s : Server} {uri text : Text} {ds : List Diag} (hp : s.pull = false) (h : fileDiagnostics dbg text = .done ds) :
    (s.update (R := R) dbg uri text).2 = [.publish uri ds] := by
  unfold Server.update Server.publishDiagnostics
  rw [hp, text_commit, if_pos rfl]
  simp only [h]
  rfl

theorem update_pull {s : Server} {uri text : Text} (hp : s.pull = true) : (s.update (R := R) dbg uri text).2 = [] := by
  unfold Server.update
  rw [if_pos hp]

/-- Only responses. -/
def responsesOf (out : List (Sent R)) : List (Sent R) := out.filter fun o => (responseId o).isSome

theorem responsesOf_nil {out : List (Sent R)} (h : responseIds out = []) : responsesOf out = [] := by
  unfold responsesOf
  rw [List.filter_eq_nil_iff]
  intro o ho hs
  unfold responseIds at h
  rw [List.filterMap_eq_nil_iff] at h
  rw [h o ho] at hs
  cases hs

theorem responsesOf_asResponse {id : ReqId} {r : Reply R} : responsesOf (asResponse id r) = asResponse id r := by cases r <;> rfl

theorem announced_mem {m : Text} (h : announced m) : m ∈ requestMethods := by
  unfold announced at h
  simp only [List.mem_cons, List.not_mem_nil, or_false] at h
  rcases h with rfl | rfl | rfl | rfl | rfl | rfl | rfl | rfl | rfl | rfl | rfl | rfl | rfl | rfl | rfl | rfl | rfl | rfl | rfl | rfl | rfl <;> decide +kernel

theorem announced_shutdown {m : Text} (h : announced m) : m ≠ shutdownMethod := by
  rintro rfl
  revert h; unfold announced; decide +kernel

theorem step_ordinary {past : List (LspMsg A)} {s : Server} {m : LspMsg A} (hu : UpToDate past s) (hp : s.phase = .running) (ho : Ordinary m)
    (hd : ∀ n uri text, m = .notification n → newText n = some (uri, text) → Checkable dbg s.pull text)
    (hs : ∀ id method a, m = .request id method (some a) → serve (currentText past) method a ≠ .panicked) :
    UpToDate (m :: past) (s.step dbg serve m).1 ∧ (s.step dbg serve m).1.phase = .running ∧ (s.step dbg serve m).1.pull = s.pull ∧
      responsesOf (s.step dbg serve m).2 = expected serve past [m] := by
  unfold Server.step
  rw [hp]
  simp only
  cases m with
  | request id method args =>
    obtain ⟨h1, h2⟩ := ho
    obtain ⟨a, rfl⟩ := Option.isSome_iff_exists.mp h2
    simp only
    rw [if_neg (by simpa using announced_shutdown h1), dispatch_mem (announced_mem h1)]
    have e : s.text = currentText past := funext hu
    rw [e]
    have := hs id method a rfl
    refine ⟨?_, ?_, ?_, ?_⟩
    · cases hr : serve (currentText past) method a with
      | panicked => exact absurd hr this
      | _ => exact upToDate_other hu (by simp)
    · cases hr : serve (currentText past) method a with
      | panicked => exact absurd hr this
      | _ => exact hp
    · cases hr : serve (currentText past) method a <;> rfl
    · rw [responsesOf_asResponse]; simp [expected]
  | notification n =>
    simp only
    refine ⟨?_, ?_, ?_, responsesOf_nil notify_ids⟩ <;> cases n with
    | didOpen uri text =>
      have h1 := hd _ uri text rfl rfl
      simp only [Server.notify, update_ok h1]
      first | exact upToDate_commit hu rfl | exact hp | rfl
    | didChange uri changes =>
      cases changes with
      | nil => first | exact upToDate_other hu (by rintro n h; cases h; rfl) | exact hp | rfl
      | cons text rest =>
        have : rest = [] := by
          have : (text :: rest).length ≤ 1 := ho
          cases rest with
          | nil => rfl
          | cons _ _ => simp at this
        subst this
        have h1 := hd _ uri text rfl rfl
        simp only [Server.notify, List.head?_cons, update_ok h1]
        first | exact upToDate_commit hu rfl | exact hp | rfl
    | exit => exact absurd ho (by simp [Ordinary])
    | _ => first | exact upToDate_other hu (by rintro n h; cases h; rfl) | exact hp | rfl
  | response => exact ⟨upToDate_other hu (by simp), hp, rfl, rfl⟩

theorem run_ordinary : ∀ {ms past : List (LspMsg A)} {s : Server}, UpToDate past s → s.phase = .running → (∀ m ∈ ms, Ordinary m) →
    (∀ n uri text, .notification n ∈ ms → newText n = some (uri, text) → Checkable dbg s.pull text) →
    (∀ before id method a after, ms = before ++ .request id method (some a) :: after → serve (currentText (before.reverse ++ past)) method a ≠ .panicked) →
    responsesOf (s.runLoop dbg serve ms).2 = expected serve past ms ∧ (s.runLoop dbg serve ms).1.phase = .running ∧
      UpToDate (ms.reverse ++ past) (s.runLoop dbg serve ms).1
  | [], past, s, hu, hp, _, _, _ => ⟨rfl, hp, hu⟩
  | m :: ms, past, s, hu, hp, ho, hd, hs => by
    obtain ⟨h1, h2, h3, h4⟩ := step_ordinary (dbg := dbg) (serve := serve) hu hp (ho m (by simp))
      (fun n uri text e hn => hd n uri text (by simp [e]) hn)
      (fun id method a e => hs [] id method a ms (by simp [e]))
    obtain ⟨h5, h6, h7⟩ := run_ordinary (ms := ms) h1 h2 (fun x hx => ho x (List.mem_cons_of_mem _ hx))
      (fun n uri text hm hn => by rw [h3]; exact hd n uri text (List.mem_cons_of_mem _ hm) hn)
      (fun before id method a after e => by
        have := hs (m :: before) id method a after (by simp [e])
        simpa using this)
    have e : (s.runLoop dbg serve (m :: ms)).2 = (s.step dbg serve m).2 ++ ((s.step dbg serve m).1.runLoop dbg serve ms).2 := rfl
    refine ⟨?_, h6, by rw [show (m :: ms).reverse ++ past = ms.reverse ++ m :: past by simp]; exact h7⟩
    rw [e]
    unfold responsesOf at h4 h5 ⊢
    rw [List.filter_append, h4, h5]
    cases m with
    | request id method args => cases args <;> simp [expected]
    | _ => simp [expected]

theorem runLoop_pull : ∀ {ms : List (LspMsg A)} {s : Server}, (s.runLoop dbg serve ms).1.pull = s.pull
  | [], _ => rfl
  | m :: ms, s => by
    have e : (s.runLoop dbg serve (m :: ms)).1 = ((s.step dbg serve m).1.runLoop dbg serve ms).1 := rfl
    rw [e, runLoop_pull]
    unfold Server.step
    split
    · cases m with
      | request id method args =>
        simp only
        split
        · rfl
        · have : ∀ l : List Text, (dispatch serve s id method args l).1.pull = s.pull := by
            intro l
            induction l with
            | nil => rfl
            | cons x l ih =>
              unfold dispatch
              split
              · split
                · rfl
                · split <;> rfl
              · exact ih
          exact this _
      | notification n =>
        have hu : ∀ uri text, (s.update (R := R) dbg uri text).1.pull = s.pull := by
          intro uri text
          unfold Server.update Server.publishDiagnostics
          split
          · rfl
          · split
            · split <;> rfl
            · rfl
        cases n with
        | didOpen uri text => exact hu _ _
        | didChange uri changes =>
          simp only [Server.notify]
          split
          · exact hu _ _
          · rfl
        | _ => rfl
      | response => rfl
    all_goals rfl

end Verif
