import Verif.Lemmas.TypingEval
import Verif.Props.C06
/-!
C30: the check of folded instructions is exact.

Full statement (false of the code): for every folded instruction whose arguments are instructions and blocks of known types,
a type error is reported for it if and only if the types of the arguments do not fit the types it takes.
The code fails it where immediates may be left out or are several (memory arguments, table indices), for calls of
imported functions with parameters, of functions whose parameters come from a type and of functions without a header, for
blocks that leave values, and for references by number that do not count alike.
Proved: the statement for instructions with all their immediates, whose references are by name or by numbers that count alike,
whose functions have no parameters or have them written with them, and whose blocks leave nothing.
-/
namespace Verif
open Spec

/-- A type error is reported for the instruction: about the number of its operands, at the instruction, or about the
type of one, at the operand. -/
def Spec.TypeReported (src : Text) (ds : List Diag) (n : Red) : Prop :=
  ∃ d ∈ ds, ((∃ e k, d.msg = .operandCount e k) ∧ IsRange src (n.start, n.stop) d.range) ∨
    ∃ o ∈ operandsOf n, (d.msg = .expectedInstr ∨ ∃ e t, d.msg = .typeMismatch e t) ∧ IsRange src (o.start, o.stop) d.range

/-- The full statement of C30. -/
def C30_statement : Prop :=
  ∀ (dbg : Bool) (src : Text) (g : Green) (errs : List Err) (dropped : Text), parse dbg src = .tree g errs dropped →
    ∀ ds, diagnostics src (Red.root g) errs = .done ds →
    ∀ n ∈ (Red.root g).descendants, n.kind = .PLAIN_INSTR → Folded n → ∀ name, instrNameOf n = some name →
    ∀ is as, Spec.Written n is as → MayHave name is.length → ∀ ps ts, Takes n ps → LeaveAll as ts →
      (TypeReported src ds n ↔ ¬ Spec.Fits ps ts)

/-- A load without offset and alignment. -/
def C30_src : Text := t!"(module (memory 1) (func (result i32) (i32.load (i32.const 0))))"

/-- The code violates C30: a load without offset and alignment is reported although its address is of the right type. -/
theorem C30_false : ¬ C30_statement := by
  intro h
  have : (parse false C30_src).test (fun g e _ => instrTest C30_src g e t!"i32.load" fun ds n =>
      foldedCaseB n 0 [.val .i32] [.val .i32] && ds.any fun d => (d.msg matches .operandCount _ _) &&
        rowanRangeToLsp C30_src n.start n.stop == some d.range) = true := by decide +kernel
  obtain ⟨g, e, d, h1, h2⟩ := ParseOut.of_test this
  obtain ⟨ds, n, hd, hn, hk, hnm, h2⟩ := instrTest_spec h2
  simp only [Bool.and_eq_true, List.any_eq_true, beq_iff_eq] at h2
  obtain ⟨hc, d', hd', hm, hrng⟩ := h2
  have hc := foldedCaseB_sound (parse_solid h1) hn hc
  refine (h _ _ _ _ _ h1 ds hd n hn hk hc.folded _ hnm _ _ hc.written ?_ _ _ hc.takes hc.leaves).mp ⟨d', hd', .inl ⟨?_, rowanRangeToLsp_iff.mp hrng⟩⟩ ?_
  · rw [hc.count]
    unfold MayHave
    rw [if_pos (by decide +kernel)]
    omega
  · revert hm; cases d'.msg <;> simp
  · simp [Spec.Fits, Compatible]

/-- Of C30, for instructions other than `select` with all their immediates, references by name or by numbers that count alike,
functions without parameters or with parameters written with them, and blocks that leave nothing: a type error is reported if
and only if the arguments do not fit.
Missing for C30: the rest, where it is false (see `C30_false` and the examples below). -/
theorem C30_partial (dbg : Bool) (src : Text) (g : Green) (errs : List Err) (dropped : Text)
    (h : parse dbg src = .tree g errs dropped) (ds : List Diag) (hd : diagnostics src (Red.root g) errs = .done ds)
    (n : Red) (hn : n ∈ (Red.root g).descendants) (hk : n.kind = .PLAIN_INSTR) (hf : Folded n)
    (name : Text) (hnm : instrNameOf n = some name) (hsel : name ≠ t!"select")
    (is as : List Red) (hw : Spec.Written n is as) (hc : is.length = immediateCount name)
    (ps ts : List OpType) (hp : Takes n ps) (hl : LeaveAll as ts)
    (hdir : Direct n) (hown : OwnHeader n) (hda : PlainArgs as)
    (hbare : name = t!"call" → ∀ f, Names n f → Bare f → ts = []) :
    TypeReported src ds n ↔ ¬ Spec.Fits ps ts := by
  have hs := parse_solid h
  obtain ⟨l, hl1, hl2⟩ := checkFolded_iff hs (parse_valOk h) (parse_root_green h) (C06_token_shapes dbg _ g errs dropped h) hn hk hf hp
    (by rw [hnm]; exact fun he => hsel (Option.some.inj he)) hdir hown hw
    (fun nm he => by rw [hnm] at he; cases he; exact hc) hl hda (by rw [hnm]; exact fun e => hbare (Option.some.inj e))
  have hnode : checkNode (symbolTable (Red.root g)) (Red.root g) n = .done (checkLiterals n ++ l) := by
    unfold checkNode
    rw [hk]
    simp only
    rw [hl1]
    rfl
  rw [← hl2]
  constructor
  · rintro ⟨d, hm, hcase⟩ rfl
    have hty : d.msg.checker = .typing := by
      rcases hcase with ⟨⟨e, k, he⟩, _⟩ | ⟨_, _, he | ⟨e, t, he⟩, _⟩ <;> rw [he] <;> rfl
    obtain ⟨r, hr, hor⟩ := typing_origin hd hm hty
    obtain ⟨hrm, hrr⟩ := toDiag_msg hr
    rcases hor with ⟨m, l', hmt, hmk, hfold, hrl⟩ | ⟨f, l', hft, hfk, hst, hrl⟩
    · obtain ⟨hmf, _, hwhere⟩ := mem_folded hfold hrl
      have hmn : m = n := by
        rcases hcase with ⟨⟨e, k, he⟩, hrng⟩ | ⟨o, ho, he, hrng⟩
        · have hpl := isRange_inj hrng hrr
          rcases hwhere with ⟨e1, e2, _⟩ | ⟨_, _, _, _, he'⟩
          · rw [e1, e2] at hpl
            exact range_inj hs hmt hn (folded_toks hmf) (folded_toks hf) hpl.symm
          · rw [← hrm, he] at he'
            rcases he' with h | ⟨_, _, h⟩ <;> cases h
        · have hpl := isRange_inj hrng hrr
          rcases hwhere with ⟨_, _, _, _, he'⟩ | ⟨o', ho', e1, e2, _⟩
          · rw [← hrm] at he'
            rcases he with h | ⟨_, _, h⟩ <;> rw [h] at he' <;> cases he'
          · rw [e1, e2] at hpl
            obtain ⟨c1, k1⟩ := mem_childrenOf.mp ho
            obtain ⟨c2, k2⟩ := mem_childrenOf.mp ho'
            simp only [Prod.mk.injEq] at hpl
            have : o = o' := InTree.key_inj hs (InTree.child hn c1) (hmt.child c2) (by
              simp only [Red.key, Key.mk.injEq]
              exact ⟨by rw [k1, k2], hpl.1, hpl.2⟩) (by rw [k2]; rfl)
            subst this
            exact child_parent_inj c2 c1
      subst hmn
      rw [hl1] at hfold
      cases hfold
      cases hrl
    · obtain ⟨b, hb, hbk, e1, e2, hwhere⟩ := mem_stacked hst hrl
      rcases hcase with ⟨⟨e, k, he⟩, hrng⟩ | ⟨o, ho, he, hrng⟩
      · have hpl := isRange_inj hrng hrr
        rw [e1, e2] at hpl
        rcases hwhere with ⟨hbf, _⟩ | ⟨_, _, he'⟩
        · have hbt : InTree g b := hft.child hb
          have hbc := childToks_ne hs hbt (by rw [hbk]; rfl) (by rw [hbk]; rfl)
          have := range_inj hs hn hbt (folded_toks hf) hbc hpl
          subst this
          exact hbf hf
        · rw [← hrm, he] at he'; cases he'
      · have hpl := isRange_inj hrng hrr
        rw [e1, e2] at hpl
        obtain ⟨c1, k1⟩ := mem_childrenOf.mp ho
        simp only [Prod.mk.injEq] at hpl
        exact operand_body hs hn hk c1 k1 (folded_toks hf) hft hfk hb (by rw [hbk]; decide) hpl
  · intro hne
    obtain ⟨r, hr⟩ := List.exists_mem_of_ne_nil l hne
    obtain ⟨d, hm, hdm, hdr⟩ := node_reported hd hn hnode (List.mem_append_right _ hr)
    obtain ⟨_, _, hwhere⟩ := mem_folded hl1 hr
    refine ⟨d, hm, ?_⟩
    rcases hwhere with ⟨e1, e2, e, k, he⟩ | ⟨o, ho, e1, e2, he⟩
    · rw [e1, e2] at hdr
      exact .inl ⟨⟨e, k, by rw [hdm, he]⟩, hdr⟩
    · rw [e1, e2] at hdr
      exact .inr ⟨o, ho, by rw [hdm]; exact he, hdr⟩

/-- The hypotheses of `C30_partial` about the instruction. -/
def C30_case (src : Text) (name : Text) (k : Nat) (ps ts : List OpType) (ds' : List Diag) : Prop :=
  ∃ g e d n is as, parse true src = .tree g e d ∧ diagnostics src (Red.root g) e = .done ds' ∧ n ∈ (Red.root g).descendants ∧
    n.kind = .PLAIN_INSTR ∧ Folded n ∧ instrNameOf n = some name ∧ name ≠ t!"select" ∧ Spec.Written n is as ∧
    is.length = immediateCount name ∧ as ≠ [] ∧ Takes n ps ∧ LeaveAll as ts ∧ Direct n ∧ OwnHeader n ∧ PlainArgs as ∧
    (name = t!"call" → ∀ f, Names n f → Bare f → ts = []) ∧ is.length = k

/-- Evaluates them. -/
def C30_caseB (src : Text) (name : Text) (k : Nat) (ps ts : List OpType) (ds' : List Diag) : Bool :=
  (parse true src).test fun g e _ => instrTest src g e name fun ds n =>
    foldedCaseB n k ps ts && directB n && calledB n && headedB n && plainArgsB ((operandsOf n).drop k) &&
      !((operandsOf n).drop k).isEmpty && ds == ds' && name != t!"select" && immediateCount name == k

theorem C30_caseB_sound {src name : Text} {k : Nat} {ps ts : List OpType} {ds' : List Diag}
    (h : C30_caseB src name k ps ts ds' = true) : C30_case src name k ps ts ds' := by
  obtain ⟨g, e, d, h1, h2⟩ := ParseOut.of_test h
  obtain ⟨ds, n, hd, hn, hk, hnm, h2⟩ := instrTest_spec h2
  have hs := parse_solid h1
  rw [Bool.and_eq_true, Bool.and_eq_true, Bool.and_eq_true, Bool.and_eq_true, Bool.and_eq_true, Bool.and_eq_true, Bool.and_eq_true,
    Bool.and_eq_true, beq_iff_eq, beq_iff_eq, bne_iff_ne, Bool.not_eq_true', List.isEmpty_eq_false_iff] at h2
  obtain ⟨⟨⟨⟨⟨⟨⟨⟨h3, h4⟩, h5⟩, h6⟩, h7⟩, h8⟩, h9⟩, h10⟩, h11⟩ := h2
  have hc := foldedCaseB_sound hs hn h3
  refine ⟨g, e, d, n, _, _, h1, by rw [hd, h9], hn, hk, hc.folded, hnm, h10, hc.written, by rw [hc.count, h11], h8, hc.takes, hc.leaves,
    directB_sound hs hn hk h4, calledB_sound hs hn hk h5,
    plainArgsB_sound hs (fun o ho => InTree.child hn (List.mem_filter.mp (List.mem_of_mem_drop ho)).1) h7, ?_, hc.count⟩
  intro hcall f hf hb
  exact absurd hb (headedB_sound hs hn hk h6 (by rw [hnm, hcall]) f hf)

/-- A call with a wrong argument and one with the right ones. -/
def C30_example (last : Text) : Text :=
  t!"(module (global $k f32 (f32.const 0)) (func $f (param i32 f32)) (func (param $x i32) (call $f (local.get $x) " ++ last ++ t!")))"

/-- Non-trivial case: the hypotheses hold for the call of `$f` with the arguments `i32` and `f64`, which do not fit, and
the second is reported at its place; with the global for the second argument the types fit. -/
example : C30_case (C30_example t!"(f64.const 1)") t!"call" 1 [.val .i32, .val .f32] [.val .i32, .val .f64]
      [⟨⟨⟨0, 109⟩, ⟨0, 122⟩⟩, .typeMismatch .f32 .f64, [⟨⟨0, 58⟩, ⟨0, 61⟩⟩]⟩] ∧
    C30_case (C30_example t!"(global.get $k)") t!"call" 1 [.val .i32, .val .f32] [.val .i32, .val .f32] [] :=
  ⟨C30_caseB_sound (by decide +kernel), C30_caseB_sound (by decide +kernel)⟩

/-- Non-trivial case: calls of functions by number and with a type that has only results, and a block that leaves nothing among
the arguments. -/
example : C30_case t!"(module (func $f (type $t)) (func (param i32)) (type $t (func (result f64))) (func (call 1 (call 0) (block (nop)))))"
      t!"call" 1 [.val .i32] [.val .f64] [⟨⟨⟨0, 91⟩, ⟨0, 99⟩⟩, .typeMismatch .i32 .f64, [⟨⟨0, 41⟩, ⟨0, 44⟩⟩]⟩] ∧
    C30_case t!"(module (func $f (type $t)) (func (param i32)) (type $t (func (result i32))) (func (call 1 (call 0) (block (nop)))))"
      t!"call" 1 [.val .i32] [.val .i32] [] :=
  ⟨C30_caseB_sound (by decide +kernel), C30_caseB_sound (by decide +kernel)⟩

/-- The diagnostics of a document. -/
def C30_shows (src : Text) (ms : List DiagMsg) : Bool :=
  (parse true src).test fun g e _ =>
    match diagnostics src (Red.root g) e with
    | .done ds => ds.map (·.msg) == ms
    | .panic => false

/-- Where the code goes wrong: the argument of a call of an imported function is reported as superfluous. -/
example : C30_shows t!"(module (import \"m\" \"f\" (func $f (param i32))) (func (call $f (i32.const 0))))" [.operandCount 1 2] = true := by
  decide +kernel

/-- So is that of a function whose parameters come from a type. -/
example : C30_shows t!"(module (type $t (func (param i32))) (func $f (type $t)) (func (call $f (i32.const 0))))" [.operandCount 1 2] = true := by
  decide +kernel

/-- A block that leaves a value does not count as an argument. -/
example : C30_shows t!"(module (func (result i32) (i32.add (block (result i32) (i32.const 1)) (i32.const 2))))" [.operandCount 2 1] = true := by
  decide +kernel

/-- Superfluous arguments of a function without a header are not reported. -/
example : C30_shows t!"(module (func $f) (func (call $f (i32.const 0))))" [] = true := by
  decide +kernel

end Verif
