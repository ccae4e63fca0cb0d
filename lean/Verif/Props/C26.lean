import Verif.Lemmas.CallSites
import Verif.Props.C01
/-!
C26: incoming and outgoing calls are dual.

For two functions `f` and `d` of a document, `d` is listed among the outgoing calls of `f` exactly as often, and with the same
ranges in the same order, as `f` is listed among the incoming calls of `d`.  Beyond duality: the entries are exactly those
of the instructions in `f` that refer to a function (of the callee, those that refer to it), and the items to start from are those of the
function at the cursor.
-/
namespace Verif
open Spec

/-- C26: the call sites listed in the two directions are the same. -/
theorem C26_dual (dbg : Bool) (src : Text) (g : Green) (errs : List Err) (dropped : Text)
    (h : parse dbg src = .tree g errs dropped) (mf md f d : Red) (kf kd : Nat) (hf : IsFunc g mf kf f) (hd : IsFunc g md kd d)
    (rf rd : Range) (hrf : IsRange src (f.start, f.stop) rf) (hrd : IsRange src (d.start, d.stop) rd)
    (outs ins : List CallEntry) (ho : outgoingCalls src (Red.root g) rf = .done (some outs))
    (hi : incomingCalls src (Red.root g) rd = .done (some ins)) :
    (outs.filter fun e => e.item.range == rd).map CallEntry.ranges = (ins.filter fun e => e.item.range == rf).map CallEntry.ranges := by
  have hs := parse_solid h
  rw [outgoing_eq hs (IsFunc.sym hf) rfl (IsFunc.sym hd) rfl hrf hrd ho, incoming_eq hs (IsFunc.sym hf) rfl (IsFunc.sym hd) rfl hrf hrd hi]

/-- The outgoing calls of a function are the instructions in it that refer to functions. -/
theorem C26_outgoing (dbg : Bool) (src : Text) (g : Green) (errs : List Err) (dropped : Text)
    (h : parse dbg src = .tree g errs dropped) (mf f : Red) (kf : Nat) (hf : IsFunc g mf kf f)
    (rf : Range) (hrf : IsRange src (f.start, f.stop) rf) (o : Option (List CallEntry))
    (ho : outgoingCalls src (Red.root g) rf = .done o) :
    ∃ es, o = some es ∧
      (∀ e ∈ es, ∃ p m k d, IsFunc g m k d ∧ CallSite f p m k d ∧ IsItem src k d e.item ∧ ∃ r, IsRange src (p.start, p.stop) r ∧
        e.ranges = [r]) ∧
      ∀ p m k d, IsFunc g m k d → CallSite f p m k d → ∃ e ∈ es, IsItem src k d e.item ∧ ∃ r, IsRange src (p.start, p.stop) r ∧
        e.ranges = [r] :=
  outgoing_mem (parse_solid h) hf hrf ho

/-- The incoming calls of a function are the instructions in functions that refer to it. -/
theorem C26_incoming (dbg : Bool) (src : Text) (g : Green) (errs : List Err) (dropped : Text)
    (h : parse dbg src = .tree g errs dropped) (m d : Red) (k : Nat) (hd : IsFunc g m k d)
    (rd : Range) (hrd : IsRange src (d.start, d.stop) rd) (o : Option (List CallEntry))
    (ho : incomingCalls src (Red.root g) rd = .done o) :
    ∃ es, o = some es ∧
      (∀ e ∈ es, ∃ p mf kf f, IsFunc g mf kf f ∧ CallSite f p m k d ∧ IsItem src kf f e.item ∧ ∃ r, IsRange src (p.start, p.stop) r ∧
        e.ranges = [r]) ∧
      ∀ p mf kf f, IsFunc g mf kf f → CallSite f p m k d → ∃ e ∈ es, IsItem src kf f e.item ∧ ∃ r, IsRange src (p.start, p.stop) r ∧
        e.ranges = [r] :=
  incoming_mem (parse_solid h) hd hrd ho

/-- The items to start from: of a function declaration the function, of a reference to a function the functions it refers to,
elsewhere none. -/
theorem C26_prepare (dbg : Bool) (src : Text) (g : Green) (errs : List Err) (dropped : Text)
    (h : parse dbg src = .tree g errs dropped) (u v : Text) (hu : src = u ++ v) (t : Tok)
    (hc : CursorOn (Red.root g) (bytes u) t) (x : Red) (hx : t.parent = some x) (o : Option (List CallItem))
    (ho : prepareCalls src (Red.root g) (posAfter u) = .done o) :
    (∀ m k, IsFunc g m k x → ∃ i, o = some [i] ∧ IsItem src k x i) ∧
    (RefersTo x .func → (indexOf x).isSome → ∃ is, o = some is ∧
      (∀ i ∈ is, ∃ m k d, IsFunc g m k d ∧ IsCallOf x m k d ∧ IsItem src k d i) ∧
      ∀ m k d, IsFunc g m k d → IsCallOf x m k d → ∃ i ∈ is, IsItem src k d i) ∧
    ((∀ m k, ¬ IsFunc g m k x) → ¬ (RefersTo x .func ∧ (indexOf x).isSome) → o = none) := by
  have hs := parse_solid h
  subst hu
  refine ⟨fun m k hf => prepare_func hs hc hx hf ho, fun hr hi => ?_, fun hf hr => ?_⟩
  · obtain ⟨i, hi⟩ := Option.isSome_iff_exists.mp hi
    obtain ⟨x', h1, hxt, _⟩ := tok_parent hc.mem
    rw [hx] at h1; cases h1
    have hne : x.kind ≠ .ROOT := by
      rcases refersTo_kind hs hxt hr with e | e <;> rw [e] <;> decide
    obtain ⟨m, hm, hxm⟩ := hxt.in_module hs hne
    exact prepare_call hs hc hx ⟨hxt, hr, module_scope hs hm hxm, hi⟩ ho
  · rw [prepare_other hs hc hx hf hr] at ho
    cases ho; rfl

/-- The requests are answered, for sources without a bad quote or without errors (see `C01_kept_partial`) and ranges of the document. -/
theorem C26_answer (dbg : Bool) (src : Text) (g : Green) (errs : List Err) (dropped : Text)
    (h : parse dbg src = .tree g errs dropped) (hq : ¬ BadQuote src ∨ errs = []) (u w v : Text) (hsrc : src = u ++ w ++ v) :
    incomingCalls src (Red.root g) ⟨posAfter u, posAfter (u ++ w)⟩ ≠ .panic ∧
      outgoingCalls src (Red.root g) ⟨posAfter u, posAfter (u ++ w)⟩ ≠ .panic := by
  have hs := parse_solid h
  have ht := C01_kept_partial dbg src g errs dropped hq h
  have hr : (lspRangeToRowan src ⟨posAfter u, posAfter (u ++ w)⟩).Ok := by
    rw [hsrc, lspRange_ok]
    exact ok_done _
  have aux : ∀ {α} {a : Ans α}, a.Ok → a ≠ .panic := by rintro α a ⟨b, rfl⟩ h; cases h
  exact ⟨aux (incomingCalls_ok hs (parse_valOk h) (parse_root_green h) ht hr),
    aux (outgoingCalls_ok hs (parse_valOk h) (parse_root_green h) ht hr)⟩

/-- A range whose end is before its start crashes the server. -/
theorem C26_reversed : ∃ g e d, parse false t!"(module)" = .tree g e d ∧
    incomingCalls t!"(module)" (Red.root g) ⟨⟨0, 1⟩, ⟨0, 0⟩⟩ = .panic ∧
    outgoingCalls t!"(module)" (Red.root g) ⟨⟨0, 1⟩, ⟨0, 0⟩⟩ = .panic := by
  have : (parse false t!"(module)").test (fun g _ _ => true) = true := by decide +kernel
  obtain ⟨g, e, d, h1, _⟩ := ParseOut.of_test this
  exact ⟨g, e, d, h1, rfl, rfl⟩

/-- Non-trivial case: `$a` calls `$b` twice, once in a folded instruction, and `$b` calls itself by number. -/
example : ∃ g e d f f' m, parse true t!"(module (func $a (call $b) (drop (call $b))) (func $b (call 1)))" = .tree g e d ∧
    IsFunc g m 0 f ∧ IsFunc g m 1 f' ∧ IsRange t!"(module (func $a (call $b) (drop (call $b))) (func $b (call 1)))" (f.start, f.stop) ⟨⟨0, 8⟩, ⟨0, 44⟩⟩ ∧
    IsRange t!"(module (func $a (call $b) (drop (call $b))) (func $b (call 1)))" (f'.start, f'.stop) ⟨⟨0, 45⟩, ⟨0, 63⟩⟩ ∧
    ∃ outs ins, outgoingCalls t!"(module (func $a (call $b) (drop (call $b))) (func $b (call 1)))" (Red.root g) ⟨⟨0, 8⟩, ⟨0, 44⟩⟩ = .done (some outs) ∧
      incomingCalls t!"(module (func $a (call $b) (drop (call $b))) (func $b (call 1)))" (Red.root g) ⟨⟨0, 45⟩, ⟨0, 63⟩⟩ = .done (some ins) ∧
      outs.map CallEntry.ranges = [[⟨⟨0, 17⟩, ⟨0, 26⟩⟩], [⟨⟨0, 33⟩, ⟨0, 42⟩⟩]] ∧
      ins.map CallEntry.ranges = [[⟨⟨0, 17⟩, ⟨0, 26⟩⟩], [⟨⟨0, 33⟩, ⟨0, 42⟩⟩], [⟨⟨0, 54⟩, ⟨0, 62⟩⟩]] ∧
      ins.map (·.item.name) = [t!"$a", t!"$a", t!"$b"] := by
  have : (parse true t!"(module (func $a (call $b) (drop (call $b))) (func $b (call 1)))").test (fun g _ _ =>
      (match (Red.root g).children with
       | [m] => (match fields m with
          | [f, f'] => f.kind == .MODULE_FIELD_FUNC && f'.kind == .MODULE_FIELD_FUNC &&
              decide (rowanRangeToLsp t!"(module (func $a (call $b) (drop (call $b))) (func $b (call 1)))" f.start f.stop = some ⟨⟨0, 8⟩, ⟨0, 44⟩⟩) &&
              decide (rowanRangeToLsp t!"(module (func $a (call $b) (drop (call $b))) (func $b (call 1)))" f'.start f'.stop = some ⟨⟨0, 45⟩, ⟨0, 63⟩⟩)
          | _ => false)
       | _ => false) &&
      match outgoingCalls t!"(module (func $a (call $b) (drop (call $b))) (func $b (call 1)))" (Red.root g) ⟨⟨0, 8⟩, ⟨0, 44⟩⟩,
        incomingCalls t!"(module (func $a (call $b) (drop (call $b))) (func $b (call 1)))" (Red.root g) ⟨⟨0, 45⟩, ⟨0, 63⟩⟩ with
      | .done (some outs), .done (some ins) => decide (outs.map CallEntry.ranges = [[⟨⟨0, 17⟩, ⟨0, 26⟩⟩], [⟨⟨0, 33⟩, ⟨0, 42⟩⟩]]) &&
          decide (ins.map CallEntry.ranges = [[⟨⟨0, 17⟩, ⟨0, 26⟩⟩], [⟨⟨0, 33⟩, ⟨0, 42⟩⟩], [⟨⟨0, 54⟩, ⟨0, 62⟩⟩]]) &&
          decide (ins.map (·.item.name) = [t!"$a", t!"$a", t!"$b"])
      | _, _ => false) = true := by decide +kernel
  obtain ⟨g, e, d, h1, h2⟩ := ParseOut.of_test this
  rw [Bool.and_eq_true] at h2
  obtain ⟨h2, h3⟩ := h2
  split at h2
  · rename_i m hm
    split at h2
    · rename_i f f' hf
      simp only [Bool.and_eq_true, beq_iff_eq, decide_eq_true_eq] at h2
      split at h3
      · rename_i outs ins ho hi
        simp only [Bool.and_eq_true, decide_eq_true_eq] at h3
        exact ⟨g, e, d, f, f', m, h1, ⟨by rw [hm]; simp, by rw [hf]; rfl, by rw [h2.1.1.1]; rfl⟩,
          ⟨by rw [hm]; simp, by rw [hf]; rfl, by rw [h2.1.1.2]; rfl⟩,
          rowanRangeToLsp_iff.mp h2.1.2, rowanRangeToLsp_iff.mp h2.2, outs, ins, ho, hi, h3.1.1, h3.1.2, h3.2⟩
      · cases h3
    · cases h2
  · cases h2

end Verif
