import Verif.Lemmas.TypingEval
import Verif.Props.C06
/-!
C31: the check of bodies agrees with the stack typing rules.

Full statement (false of the code): a body whose instructions and blocks have known types gets a type diagnostic if
and only if running the types of its instructions and blocks from the empty stack fails or does not end with the results.
The code does not look at what is left at the end, and passes over blocks.
Proved: the diagnostics of the body are there if and only if the run fails, for instructions whose references are by name or by
numbers that count alike, calls of functions that have no parameters or have them written with them, and blocks that take and
leave nothing.
-/
namespace Verif
open Spec

/-- A type error is reported for an instruction of the body as such: it lacks operands, or what it leaves is not of the
type expected. -/
def Spec.BodyReported (src : Text) (ds : List Diag) (f : Red) : Prop :=
  ∃ d ∈ ds, ∃ b ∈ bodyOf f, IsRange src (b.start, b.stop) d.range ∧
    ((∃ e t, d.msg = .typeMismatch e t) ∨ (¬ Folded b ∧ ∃ e k, d.msg = .operandCount e k))

/-- The full statement of C31. -/
def C31_statement : Prop :=
  ∀ (dbg : Bool) (src : Text) (g : Green) (errs : List Err) (dropped : Text), parse dbg src = .tree g errs dropped →
    ∀ ds, diagnostics src (Red.root g) errs = .done ds →
    ∀ f ∈ (Red.root g).descendants, f.kind = .MODULE_FIELD_FUNC → ∀ ps rs, Declared f ps rs →
    (∀ b ∈ bodyOf f, (b.kind = .PLAIN_INSTR ∧ (∃ ps, Takes b ps) ∧ ∃ rs, Leaves b rs) ∨
        (isLabel b.kind = true ∧ ∃ ps rs, BlockType b ps rs)) →
      (BodyReported src ds f ↔ ¬ ∃ out, Runs (bodyOf f) [] out ∧ Spec.Fits (rs.map .val) out)

/-- A function without its result. -/
def C31_src : Text := t!"(module (func (result i32) i64.const 0))"

theorem Spec.Runs.cons_plain {b : Red} {st out : List OpType} (h : Runs [b] st out) (hk : b.kind = .PLAIN_INSTR) (hf : ¬ Folded b) :
    ∃ ps got rs st', st = st' ++ got ∧ Takes b ps ∧ Spec.Fits ps got ∧ Leaves b rs ∧ out = st' ++ rs := by
  cases h with
  | folded _ h => exact absurd h hf
  | plain _ _ h1 h2 h3 h4 => cases h4; exact ⟨_, _, _, _, rfl, h1, h2, h3, rfl⟩
  | block h => rw [hk] at h; cases h

/-- The code violates C31: a function that leaves a value of another type than its result gets no diagnostic. -/
theorem C31_false : ¬ C31_statement := by
  intro h
  have : (parse false C31_src).test (fun g e _ => instrTest C31_src g e t!"i64.const" fun ds n =>
      ds.isEmpty && (n.token .L_PAREN).isNone && takesB n == some [] && leavesB n == some [.val .i64] && (directB n && calledB n) &&
        n.parent.any fun f => f.kind == .MODULE_FIELD_FUNC && (declaredB f == some ([], [.i32])) && (bodyOf f).length == 1) = true := by
    decide +kernel
  obtain ⟨g, e, d, h1, h2⟩ := ParseOut.of_test this
  obtain ⟨ds, n, hd, hn, hk, hnm, h2⟩ := instrTest_spec h2
  have hs := parse_solid h1
  simp only [Bool.and_eq_true (_ && _), Bool.and_eq_true (List.isEmpty _), beq_iff_eq, List.isEmpty_iff, Option.any_eq_true] at h2
  obtain ⟨⟨⟨⟨⟨rfl, hf⟩, h3⟩, h4⟩, h5⟩, f, hp, h6⟩ := h2
  rw [Bool.and_eq_true, beq_iff_eq, beq_iff_eq] at h6
  obtain ⟨⟨h6, h7⟩, h8⟩ := h6
  obtain ⟨hft, hnc⟩ := InTree.parent hn hp
  have hbody : bodyOf f = [n] := by
    have hm : n ∈ bodyOf f := List.mem_filter.mpr ⟨hnc, by rw [hk]; rfl⟩
    obtain ⟨x, hx⟩ := List.length_eq_one_iff.mp h8
    rw [hx, List.mem_singleton] at hm
    rw [hx, hm]
  have ht := takesB_sound hs hn hk h3
  have hl := leavesB_sound hs hn hk h4
  rw [Bool.and_eq_true] at h5
  have hd1 := directB_sound hs hn hk h5.1
  have hd2 := calledB_sound hs hn hk h5.2
  have hnf : ¬ Folded n := by
    unfold Folded
    cases hx : n.token .L_PAREN <;> simp_all
  obtain ⟨d', hd', _⟩ := (h _ _ _ _ _ h1 [] hd f hft h6 [] [.i32] (declaredB_sound h7) (by
    rw [hbody]
    intro b hb
    rw [List.mem_singleton] at hb; subst hb
    exact .inl ⟨hk, ⟨_, ht⟩, _, hl⟩)).mpr (by
      rw [hbody]
      rintro ⟨out, hr, hfit⟩
      obtain ⟨ps, got, rs, st', h9, h10, _, h11, h12⟩ := hr.cons_plain hk hnf
      have := leaves_unique hs (parse_valOk h1) (parse_root_green h1) (C06_token_shapes _ _ _ _ _ h1) hn ⟨hk, ⟨_, ht⟩, ⟨_, hl⟩, hd1, hd2⟩ hl h11
      subst this
      have h13 := (List.append_eq_nil_iff.mp h9.symm).1
      rw [h12, h13] at hfit
      simp [Spec.Fits, Compatible] at hfit)
  cases hd'

/-- Of C31, that the body runs: for instructions with references by name or by numbers that count alike, calls of functions that
have no parameters or have them written with them, and blocks that take and leave nothing, an error is reported in the body if
and only if its types cannot be run from the empty stack.
Missing for C31: the results (false, see `C31_false`) and other blocks and calls (false, see the examples below). -/
theorem C31_partial (dbg : Bool) (src : Text) (g : Green) (errs : List Err) (dropped : Text)
    (h : parse dbg src = .tree g errs dropped) (ds : List Diag) (hd : diagnostics src (Red.root g) errs = .done ds)
    (f : Red) (hf : f ∈ (Red.root g).descendants) (hk : f.kind = .MODULE_FIELD_FUNC ∨ f.kind = .MODULE_FIELD_GLOBAL)
    (hb : ∀ b ∈ bodyOf f, Typed b ∨ Neutral b) : BodyReported src ds f ↔ ¬ ∃ out, Runs (bodyOf f) [] out := by
  have hs := parse_solid h
  obtain ⟨l, hl1, hl2⟩ := checkStacked_iff hs (parse_valOk h) (parse_root_green h) (C06_token_shapes _ _ _ _ _ h) hf hb
  have hnode : checkNode (symbolTable (Red.root g)) (Red.root g) f = .done l := by
    unfold checkNode
    rcases hk with hk | hk <;> rw [hk] <;> exact hl1
  rw [← hl2]
  have toks : ∀ b : Red, InTree g b → b.kind = .PLAIN_INSTR → b.childToks ≠ [] := fun b hb hk =>
    childToks_ne hs hb (by rw [hk]; rfl) (by rw [hk]; rfl)
  constructor
  · rintro ⟨d, hm, b, hbm, hrng, hcase⟩ rfl
    have hbc : b ∈ f.children := (List.mem_filter.mp hbm).1
    have hbt : InTree g b := InTree.child hf hbc
    have hbk : b.kind = .PLAIN_INSTR ∨ isLabel b.kind = true := (hb b hbm).imp (·.1) (·.1)
    have hbx : b.childToks ≠ [] := by
      rcases hbk with hk | hk
      · exact toks b hbt hk
      · exact childToks_ne hs hbt (by revert hk; cases b.kind <;> simp [isLabel] <;> rfl) (by revert hk; cases b.kind <;> simp [isLabel] <;> rfl)
    have hty : d.msg.checker = .typing := by
      rcases hcase with ⟨e, t, he⟩ | ⟨_, e, k, he⟩ <;> rw [he] <;> rfl
    obtain ⟨r, hr, hor⟩ := typing_origin hd hm hty
    obtain ⟨hrm, hrr⟩ := toDiag_msg hr
    have hpl := isRange_inj hrng hrr
    rcases hor with ⟨m, l', hmt, hmk, hfold, hrl⟩ | ⟨f', l', hft, hfk, hst, hrl⟩
    · obtain ⟨hmf, _, hwhere⟩ := mem_folded hfold hrl
      rcases hwhere with ⟨e1, e2, e, k, he⟩ | ⟨o, ho, e1, e2, he⟩
      · rw [e1, e2] at hpl
        have := range_inj hs hbt hmt hbx (toks m hmt hmk) hpl
        subst this
        rcases hcase with ⟨e, t, he'⟩ | ⟨h5, _⟩
        · rw [← hrm, he'] at he; cases he
        · exact h5 hmf
      · rw [e1, e2] at hpl
        obtain ⟨c1, k1⟩ := mem_childrenOf.mp ho
        simp only [Prod.mk.injEq] at hpl
        exact operand_body hs hmt hmk c1 k1 (folded_toks hmf) hf hk hbc (by rcases hbk with h | h <;> intro e <;> rw [e] at h <;> cases h) ⟨hpl.1.symm, hpl.2.symm⟩
    · obtain ⟨b', hb', hbk', e1, e2, _⟩ := mem_stacked hst hrl
      rw [e1, e2] at hpl
      have := range_inj hs hbt (hft.child hb') hbx (toks b' (hft.child hb') hbk') hpl
      subst this
      have := child_parent_inj hbc hb'
      subst this
      rw [hl1] at hst
      cases hst
      cases hrl
  · intro hne
    obtain ⟨r, hr⟩ := List.exists_mem_of_ne_nil l hne
    obtain ⟨d, hm, hdm, hdr⟩ := node_reported hd hf hnode hr
    obtain ⟨b, hbc, hbk, e1, e2, hwhere⟩ := mem_stacked hl1 hr
    rw [e1, e2] at hdr
    refine ⟨d, hm, b, List.mem_filter.mpr ⟨hbc, by rw [hbk]; rfl⟩, hdr, ?_⟩
    rcases hwhere with ⟨h1, e, k, he⟩ | ⟨e, t, he⟩
    · exact .inr ⟨h1, e, k, by rw [hdm, he]⟩
    · exact .inl ⟨e, t, by rw [hdm, he]⟩

/-- Evaluates the hypotheses. -/
def typedB (b : Red) : Bool :=
  b.kind == .PLAIN_INSTR && (takesB b).isSome && (leavesB b).isSome && directB b && calledB b

theorem typedB_sound (hs : Solid g) {b : Red} (hb : InTree g b) (h : typedB b = true) : Typed b := by
  unfold typedB at h
  rw [Bool.and_eq_true, Bool.and_eq_true, Bool.and_eq_true, Bool.and_eq_true, beq_iff_eq] at h
  obtain ⟨⟨⟨⟨h1, h2⟩, h3⟩, h4⟩, h5⟩ := h
  obtain ⟨ps, h6⟩ := Option.isSome_iff_exists.mp h2
  obtain ⟨rs, h7⟩ := Option.isSome_iff_exists.mp h3
  exact ⟨h1, ⟨ps, takesB_sound hs hb h1 h6⟩, ⟨rs, leavesB_sound hs hb h1 h7⟩, directB_sound hs hb h1 h4, calledB_sound hs hb h1 h5⟩

def neutralB (b : Red) : Bool := isLabel b.kind && blockB b == some ([], []) && (b.kind != .BLOCK_IF || (b.token .L_PAREN).isSome)

theorem neutralB_sound {b : Red} (h : neutralB b = true) : Neutral b := by
  unfold neutralB at h
  rw [Bool.and_eq_true, Bool.and_eq_true, beq_iff_eq, Bool.or_eq_true, bne_iff_ne] at h
  obtain ⟨⟨h1, h2⟩, h3⟩ := h
  exact ⟨h1, blockB_sound h2, fun hk => h3.resolve_left (absurd hk)⟩

/-- The hypotheses of `C31_partial` for the function of the first `local.get`. -/
def C31_case (src : Text) (ds : List Diag) : Prop :=
  ∃ g e d f, parse true src = .tree g e d ∧ diagnostics src (Red.root g) e = .done ds ∧
    f ∈ (Red.root g).descendants ∧ f.kind = .MODULE_FIELD_FUNC ∧ 4 < (bodyOf f).length ∧ ∀ b ∈ bodyOf f, Typed b ∨ Neutral b

def C31_caseB (src : Text) (ds' : List Diag) : Bool :=
  (parse true src).test fun g e _ => instrTest src g e t!"local.get" fun ds n => ds == ds' && n.parent.any fun f =>
    f.kind == .MODULE_FIELD_FUNC && decide (4 < (bodyOf f).length) && (bodyOf f).all fun b => typedB b || neutralB b

theorem C31_caseB_sound {src : Text} {ds' : List Diag} (h : C31_caseB src ds' = true) : C31_case src ds' := by
  obtain ⟨g, e, d, h1, h2⟩ := ParseOut.of_test h
  obtain ⟨ds, n, hd, hn, hk, hnm, h2⟩ := instrTest_spec h2
  simp only [Bool.and_eq_true, beq_iff_eq, Option.any_eq_true, decide_eq_true_eq, List.all_eq_true, Bool.or_eq_true] at h2
  obtain ⟨rfl, f, hp, ⟨h3, h4⟩, h5⟩ := h2
  obtain ⟨hft, _⟩ := InTree.parent hn hp
  exact ⟨g, e, d, f, h1, hd, hft, h3, h4, fun b hb =>
    (h5 b hb).imp (typedB_sound (parse_solid h1) (hft.child (List.mem_filter.mp hb).1)) neutralB_sound⟩

/-- A body with unfolded and folded instructions, a call and a parameter. -/
def C31_example (op : Text) : Text :=
  t!"(module (func $f (param i32) (result f64)) (func (param $x i32) local.get $x call $f (f64.const 1) " ++ op ++ t!" drop))"

/-- Non-trivial case: the hypotheses hold for the second function; with `f64.add` nothing is reported, with `f32.add`
both operands are, and with `f64.add f64.add` the number of operands of the second. -/
example : C31_case (C31_example t!"f64.add") [] ∧
    C31_case (C31_example t!"f32.add")
      [⟨⟨⟨0, 77⟩, ⟨0, 84⟩⟩, .typeMismatch .f32 .f64, []⟩, ⟨⟨⟨0, 85⟩, ⟨0, 98⟩⟩, .typeMismatch .f32 .f64, []⟩] ∧
    C31_case (C31_example t!"f64.add f64.add") [⟨⟨⟨0, 107⟩, ⟨0, 114⟩⟩, .operandCount 2 1, []⟩] :=
  ⟨C31_caseB_sound (by decide +kernel), C31_caseB_sound (by decide +kernel), C31_caseB_sound (by decide +kernel)⟩

/-- A body with blocks, and calls by number of a function without a header, of one that names its type and of one
with a parameter. -/
def C31_example2 (op : Text) : Text :=
  t!"(module (func) (func (type $t)) (func (param i32)) (type $t (func (result i32))) (func (param i32) call 0 call 1 (block (nop)) local.get 0 "
    ++ op ++ t!" loop call 2 end))"

/-- Non-trivial case for blocks and calls of functions by number. -/
example : C31_case (C31_example2 t!"i32.add call 2") [] ∧
    C31_case (C31_example2 t!"f32.add drop")
      [⟨⟨⟨0, 106⟩, ⟨0, 112⟩⟩, .typeMismatch .f32 .i32, []⟩, ⟨⟨⟨0, 127⟩, ⟨0, 138⟩⟩, .typeMismatch .f32 .i32, []⟩] :=
  ⟨C31_caseB_sound (by decide +kernel), C31_caseB_sound (by decide +kernel)⟩

/-- The diagnostics of a document. -/
def C31_shows (src : Text) (ms : List DiagMsg) : Bool :=
  (parse true src).test fun g e _ =>
    match diagnostics src (Red.root g) e with
    | .done ds => ds.map (·.msg) == ms
    | .panic => false

/-- Where the code goes wrong: what a block leaves is missed. -/
example : C31_shows t!"(module (func block (result i32) i32.const 0 end drop))" [.operandCount 1 0] = true := by decide +kernel

/-- So is what it takes: here a second value for `drop` is found that the `if` has taken. -/
example : C31_shows t!"(module (func i32.const 0 if nop end drop))" [] = true := by decide +kernel

/-- Nothing in a block is checked. -/
example : C31_shows t!"(module (func nop block i32.add end))" [] = true := by decide +kernel

end Verif
