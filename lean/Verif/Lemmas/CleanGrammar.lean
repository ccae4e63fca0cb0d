import Lean
import Verif.Lemmas.CleanRec
import Verif.Lemmas.SimGrammar
import Verif.Lemmas.DeriveGrammar
/-!
Helper lemmas: the grammar on two texts that differ in names only, where no error is recorded.
-/
namespace Verif.Clean
open P Spec Sim

variable {J : Inv} {b st dbg : Bool} {n : Nat}

/-- Two ways to go on after a word, the same where the words are. -/
structure PW (J : Inv) (b st : Bool) (n : Nat) (f g : Text → G) : Prop where
  mono : ∀ a, Mono (f a)
  sim : ∀ d a a', WV d a a' → Cl J b GV2 st n (f a) (g a')

theorem pw_fail : PW J b st n (fun _ => P.fail) (fun _ => P.fail) := ⟨fun _ => mono_pfail, fun _ _ _ _ => cl_fail⟩
theorem pw_const {p q : G} (h : Cl J b GV2 st n p q) : PW J b st n (fun _ => p) (fun _ => q) := ⟨fun _ => h.mono, fun _ _ _ _ => h⟩
theorem pw_ite {kw : Text} {p q : G} {f g : Text → G} (hk : '$' ∉ kw) (h1 : Cl J b GV2 st n p q) (h2 : PW J b st n f g) :
    PW J b st n (fun w => if w == kw then p else f w) (fun w => if w == kw then q else g w) :=
  ⟨fun a => by split; exact h1.mono; exact h2.mono a, fun d a a' hw => cl_ite (hw.beq hk) h1 (h2.sim d a a' hw)⟩

theorem keeps_parenWord : Keeps (peekParenWord dbg) := keeps_lex fun _ => lex_peek lex_peekParenWord
theorem cl_parenWord {f g : Text → G} (h : PW J b st n f g) : Cl J b GV2 st n (bind (peekParenWord dbg) f) (bind (peekParenWord dbg) g) :=
  cl_look (fun _ => sim_parenWord) (fun _ _ _ h => h.1) keeps_parenWord h.mono fun a a' hv => by
    obtain ⟨_, d, hd⟩ := hv
    exact h.sim d a a' hd

theorem keeps_peekAny : Keeps (peek any) := keeps_lex (dbg := false) fun _ => lex_peek lex_any
theorem cl_peekAny {f g : Char → G} (h : ∀ c, Cl J b GV2 st n (f c) (g c)) : Cl J b GV2 st n (bind (peek any) f) (bind (peek any) g) :=
  cl_look (fun _ => sim_peekAny) (fun _ _ _ h => h.1) keeps_peekAny (fun c => (h c).mono) fun a a' hv => by
    obtain ⟨_, rfl⟩ := hv
    exact h a

theorem Cl.run {α β : Type} {V W : List Seg → List Seg → α → β → Prop} {p : P α} {q : P β} {r : List Seg} {s s' : St} (h : Cl J false V st n p q) (hl : r.length < n)
    (ha : At2 J r s s') (hv : ∀ d r' x y, r = d ++ r' → V d r' x y → W d r' x y) : Bad (p s) ∨ COut J W st r (p s) (q s') := by
  refine (h.sim r s s' hl ha fun h => by cases h).imp id fun h => ?_
  revert h
  cases p s <;> cases q s' <;> simp only [COut] <;> try (intro h; exact h)
  rintro ⟨d, r', rfl, h6, h7, h8⟩
  exact ⟨d, r', rfl, h6, hv _ _ _ _ rfl h7, h8⟩

open Lean Elab Tactic in
/-- One step of `pcl`: dispatches on the head symbol of the parser. -/
elab "pcl1" : tactic => withMainContext do
  let t := (← instantiateMVars (← (← getMainGoal).getType)).consumeMData
  unless t.isAppOf ``Cl do throwError "not a Cl goal"
  let p := t.appArg!
  match p.getAppFn with
  | .const n _ =>
    match n with
    | ``lParen => evalTactic (← `(tactic| with_reducible (exact cl_lParen)))
    | ``ident => evalTactic (← `(tactic| with_reducible (exact cl_ident)))
    | ``string => evalTactic (← `(tactic| with_reducible (exact cl_string)))
    | ``unsignedInt => evalTactic (← `(tactic| with_reducible (exact cl_unsignedInt)))
    | ``int => evalTactic (← `(tactic| with_reducible (exact cl_int)))
    | ``float => evalTactic (← `(tactic| with_reducible (exact cl_float)))
    | ``refType => evalTactic (← `(tactic| with_reducible (exact cl_refType)))
    | ``heapType => evalTactic (← `(tactic| with_reducible (exact cl_heapType)))
    | ``share => evalTactic (← `(tactic| with_reducible (exact cl_share)))
    | ``instrName => evalTactic (← `(tactic| with_reducible (exact cl_instrName)))
    | ``memArg => evalTactic (← `(tactic| with_reducible (exact cl_memArg)))
    | ``keyword => evalTactic (← `(tactic| exact cl_keyword (by first | assumption | decide)))
    | ``valType => evalTactic (← `(tactic| with_reducible (exact cl_valType)))
    | ``rParen => evalTactic (← `(tactic| with_reducible (exact cl_rParen)))
    | ``trivias => evalTactic (← `(tactic| with_reducible (exact cl_trivias)))
    | ``P.pure => evalTactic (← `(tactic| with_reducible (exact cl_nil)))
    | ``P.fail => evalTactic (← `(tactic| with_reducible (exact cl_fail)))
    | ``nodeP => evalTactic (← `(tactic| with_reducible (refine cl_node ?_)))
    | ``P.context => evalTactic (← `(tactic| with_reducible (refine cl_context ?_)))
    | ``tp => evalTactic (← `(tactic| with_reducible (refine cl_tp ?_)))
    | ``retryOnce => evalTactic (← `(tactic| refine cl_retryOnce ?_))
    | ``retry => evalTactic (← `(tactic| refine cl_retry ?_))
    | ``optG => evalTactic (← `(tactic| with_reducible (refine cl_optG (st := true) ?_)))
    | ``must => evalTactic (← `(tactic| with_reducible (refine cl_must (st := true) ?_)))
    | ``many => evalTactic (← `(tactic| with_reducible (refine cl_many ?_)))
    | ``many1 => evalTactic (← `(tactic| with_reducible (refine cl_many1 ?_)))
    | ``P.alt => evalTactic (← `(tactic| with_reducible (first | refine cl_alt_two ?_ ?_ | refine cl_alt_three ?_ ?_ ?_)))
    | ``seq => evalTactic (← `(tactic| with_reducible (first | exact cl_seq_nil | refine cl_trivSeq ?_ | refine cl_seq_cons0 ?_ ?_ | refine cl_seq_consC ?_ ?_)))
    | ``ite => evalTactic (← `(tactic| with_reducible (refine cl_ite rfl ?_ ?_)))
    | _ => evalTactic (← `(tactic| with_reducible assumption))
  | _ => evalTactic (← `(tactic| first | (with_reducible assumption) | (apply Cl.weak; apply Cl.le <;> first | assumption | omega)))

/-- Discharges `Cl` goals for parsers built from the combinators. -/
macro "pcl" : tactic => `(tactic| repeat' pcl1)

theorem cl_param : Cl J true GV2 st n (param dbg) (param dbg) := by unfold param; pcl
theorem cl_result : Cl J true GV2 st n (result dbg) (result dbg) := by unfold result; pcl
theorem cl_funcType : Cl J true GV2 st n (funcType dbg) (funcType dbg) := by
  unfold funcType; pcl <;> first | with_reducible exact cl_param | with_reducible exact cl_result
theorem cl_limits : Cl J true GV2 st n (limits dbg) (limits dbg) := by unfold limits; pcl
theorem cl_tableType : Cl J true GV2 st n (tableType dbg) (tableType dbg) := by
  unfold tableType; pcl; with_reducible exact cl_limits
theorem cl_memoryType : Cl J true GV2 st n (memoryType dbg) (memoryType dbg) := by
  unfold memoryType; pcl; with_reducible exact cl_limits
theorem cl_globalType : Cl J true GV2 st n (globalType dbg) (globalType dbg) := by unfold globalType; pcl
theorem cl_index : Cl J true GV2 st n index index := by unfold index; pcl
theorem cl_typeUse : Cl J true GV2 st n (typeUse dbg) (typeUse dbg) := by
  unfold typeUse; pcl <;> first | with_reducible exact cl_param | with_reducible exact cl_result | with_reducible exact cl_index
theorem cl_localP : Cl J true GV2 st n (localP dbg) (localP dbg) := by unfold localP; pcl
theorem cl_moduleName : Cl J true GV2 st n moduleName moduleName := by unfold moduleName; pcl
theorem cl_nameP : Cl J true GV2 st n nameP nameP := by unfold nameP; pcl
theorem cl_importP : Cl J true GV2 st n (importP dbg) (importP dbg) := by
  unfold importP; pcl <;> first | with_reducible exact cl_moduleName | with_reducible exact cl_nameP
theorem cl_exportP : Cl J true GV2 st n (exportP dbg) (exportP dbg) := by
  unfold exportP; pcl <;> with_reducible exact cl_nameP
theorem cl_importDescGlobalType : Cl J true GV2 st n (importDescGlobalType dbg) (importDescGlobalType dbg) := by
  unfold importDescGlobalType; pcl; with_reducible exact cl_globalType
theorem cl_importDescMemoryType : Cl J true GV2 st n (importDescMemoryType dbg) (importDescMemoryType dbg) := by
  unfold importDescMemoryType; pcl; with_reducible exact cl_memoryType
theorem cl_importDescTableType : Cl J true GV2 st n (importDescTableType dbg) (importDescTableType dbg) := by
  unfold importDescTableType; pcl; with_reducible exact cl_tableType
theorem cl_importDescTypeUse : Cl J true GV2 st n (importDescTypeUse dbg) (importDescTypeUse dbg) := by
  unfold importDescTypeUse; pcl; with_reducible exact cl_typeUse
theorem cl_importDesc : Cl J true GV2 st n (importDesc dbg) (importDesc dbg) := by
  unfold importDesc
  exact cl_context (cl_parenWord (pw_ite (by decide) cl_importDescTypeUse (pw_ite (by decide) cl_importDescGlobalType
    (pw_ite (by decide) cl_importDescMemoryType (pw_ite (by decide) cl_importDescTableType pw_fail)))))
theorem cl_exportDescVariant {kw : Text} {k : Kind} (hk : '$' ∉ kw) : Cl J true GV2 st n (exportDescVariant dbg kw k) (exportDescVariant dbg kw k) := by
  unfold exportDescVariant
  pcl
  with_reducible exact cl_index
theorem cl_exportDesc : Cl J true GV2 st n (exportDesc dbg) (exportDesc dbg) := by
  unfold exportDesc
  exact cl_context (cl_parenWord (pw_ite (by decide) (cl_exportDescVariant (by decide)) (pw_ite (by decide) (cl_exportDescVariant (by decide))
    (pw_ite (by decide) (cl_exportDescVariant (by decide)) (pw_ite (by decide) (cl_exportDescVariant (by decide)) pw_fail)))))
theorem cl_memUse : Cl J true GV2 st n (memUse dbg) (memUse dbg) := by unfold memUse; pcl; with_reducible exact cl_index
theorem cl_tableUse : Cl J true GV2 st n (tableUse dbg) (tableUse dbg) := by unfold tableUse; pcl; with_reducible exact cl_index
theorem cl_dataP : Cl J true GV2 st n (dataP dbg) (dataP dbg) := by unfold dataP; pcl

/-! ### Instructions -/

theorem cl_operand {ins ins' : G} {b : Bool} (h : Cl J true GV2 true n ins ins') : Cl J true GV2 st n (operand dbg ins b) (operand dbg ins' b) := by
  unfold operand
  refine cl_context (cl_node (cl_peekAny fun c => ?_))
  have hp : Cl J true GV2 st n (bind (peekParenWord dbg) fun w => if w == t!"type" then typeUse dbg else if b then ins else P.fail)
      (bind (peekParenWord dbg) fun w => if w == t!"type" then typeUse dbg else if b then ins' else P.fail) :=
    cl_parenWord (pw_ite (by decide) cl_typeUse (pw_const (cl_ite rfl h.weak cl_fail)))
  pcl

theorem cl_plainInstr {ins ins' : G} (h : Cl J true GV2 true (n - 1) ins ins') : Cl J true GV2 st n (plainInstr dbg ins) (plainInstr dbg ins') := by
  unfold plainInstr
  pcl <;> exact cl_operand (h.le (by omega))

theorem cl_blockType : Cl J true GV2 st n (blockType dbg) (blockType dbg) := by
  unfold blockType; pcl <;> first | with_reducible exact cl_result | with_reducible exact cl_typeUse

theorem keeps_peekEnd {ends : List Text} : Keeps (peekEnd dbg ends) := keeps_lex fun _ => lex_peek lex_peekEnd
theorem cl_peekEnd {ends : List Text} (he : ∀ e ∈ ends, '$' ∉ e) : Cl J b (fun c _ _ _ => c = []) false n (peekEnd dbg ends) (peekEnd dbg ends) := by
  refine ⟨keeps_peekEnd.mono, fun ss s s' hl ha hb => ?_⟩
  have h := sim_peekEnd (bs := true) (dbg := dbg) he ss s s' (Nat.le_refl _) ha.at_
  cases h1 : peekEnd dbg ends s <;> cases h2 : peekEnd dbg ends s' <;> simp only [h1, h2, SimOut] at h
  · obtain ⟨c, r, rfl, h3, rfl, _⟩ := h
    exact .inr ⟨[], r, rfl, ⟨h3, (same_errs ha (keeps_peekEnd.ok h1) h3).1, ha.inv⟩, rfl, fun h => by cases h⟩
  · obtain ⟨c, r, rfl, h3⟩ := h
    exact .inr (same_errs ha (keeps_peekEnd.fail h1) h3)
  · exact .inl trivial

theorem cl_instrsTill {ins ins' : G} {ends : List Text} (h : Cl J true GV2 true n ins ins') (he : ∀ e ∈ ends, '$' ∉ e := by decide) :
    Cl J b GV2 false n (instrsTill dbg ins ends) (instrsTill dbg ins' ends) :=
  cl_map (V := fun c r (a b : List (List Green) × Unit) => GV2 c r a.1.flatten b.1.flatten)
    (cl_repeatTill (cl_retryOnce (st := true) h) (cl_peekEnd he) (fun _ _ _ _ h => by subst h; exact .nil) fun _ _ _ _ _ _ _ h1 h2 => h1.append h2) fun _ _ _ _ h => h

theorem cl_blockLike {ins ins' : G} {kw : Text} {k : Kind} (h : Cl J true GV2 true (n - 1) ins ins') (hkw : '$' ∉ kw) :
    Cl J true GV2 st n (blockLike dbg ins kw k) (blockLike dbg ins' kw k) := by
  unfold blockLike
  refine cl_alt_two (cl_node ?_) (cl_node ?_)
  · refine cl_seq_consC (cl_keyword hkw) ?_
    refine cl_seq_cons0 (cl_optG (st := true) ?_) (cl_seq_cons0 (cl_optG (st := true) ?_)
      (cl_seq_cons0 (cl_instrsTill h) ?_)) <;> pcl
    with_reducible exact cl_blockType
  · refine cl_seq_consC (by pcl) ?_
    refine cl_seq_consC (cl_tp (cl_keyword hkw)) ?_
    pcl
    with_reducible exact cl_blockType

theorem cl_ifCondsThen {ins ins' : G} (h : Cl J true GV2 true n ins ins') :
    Cl J b (fun c r (a b : List Green × List Green) => ∃ c1 c2, c = c1 ++ c2 ∧ GV2 c1 (c2 ++ r) a.1 b.1 ∧ GV2 c2 r a.2 b.2) false n
      (ifCondsThen dbg ins) (ifCondsThen dbg ins') := by
  refine cl_map (V := fun c r (a b : List (List Green) × List Green × List Green) => ∃ c1 c2, c = c1 ++ c2 ∧ GV2 c1 (c2 ++ r) (a.1.flatten ++ a.2.1) (b.1.flatten ++ b.2.1) ∧ GV2 c2 r a.2.2 b.2.2)
    (cl_repeatTill (cl_retry (st := true) h)
      (cl_afterTriv (U := fun _ _ _ _ => True) (W := fun c r (a b : List Green × List Green) => ∃ c1 c2, c = c1 ++ c2 ∧ GV2 c1 (c2 ++ r) a.1 b.1 ∧ GV2 c2 r a.2 b.2) (st := true)
        (fun _ => mono_map (Cl.mono (J := J) (b := true) (V := GV2) (st := true) (n := n) (q := seq [lParen, tp dbg (keyword t!"then")]) (by pcl))) fun c r x y hxy =>
        cl_map (V := GV2) (by pcl) fun d r' u v huv e => ⟨c, d, rfl, by subst e; exact hxy, huv⟩)
      (fun c r a b h => h) ?_) fun _ _ _ _ h => h
  rintro c d r a a' x y h1 ⟨c1, c2, rfl, h2, h3⟩
  refine ⟨c ++ c1, c2, by simp, ?_, h3⟩
  simp only [List.flatten_cons, List.append_assoc] at h1 ⊢
  exact h1.append h2

theorem cl_blockIf {ins ins' : G} (h : Cl J true GV2 true (n - 1) ins ins') : Cl J true GV2 st n (blockIf dbg ins) (blockIf dbg ins') := by
  unfold blockIf
  refine cl_alt_two (cl_node ?_) (cl_node ?_)
  · refine cl_seq_consC (by pcl) ?_
    refine cl_seq_cons0 (cl_optG (st := true) (by pcl)) (cl_seq_cons0 (cl_optG (st := true)
      (cl_tp cl_blockType)) (cl_seq_cons0 (cl_node (cl_instrsTill h)) ?_))
    refine cl_seq_cons0 (cl_optG (st := true) (cl_trivSeq (cl_node ?_))) (by pcl)
    refine cl_seq_consC (by pcl) ?_
    refine cl_seq_cons0 (by pcl) (cl_seq_cons0 (cl_instrsTill (h.le (by omega))) cl_seq_nil)
  · refine cl_seq_consC (by pcl) ?_
    refine cl_seq_consC (by pcl) ?_
    refine cl_seq_cons0 (by pcl) (cl_seq_cons0 (cl_optG (st := true) (cl_tp cl_blockType)) ?_)
    rw [seq_single, seq_single]
    have hi : Cl J true GV2 true (n - 1 - 1) ins ins' := h.le (by omega)
    have t1 : Cl J false GV2 false (n - 1 - 1) (seq [many dbg (retry dbg ins []), rParen dbg]) (seq [many dbg (retry dbg ins' []), rParen dbg]) := by pcl
    have t2 : Cl J false GV2 false (n - 1 - 1) (seq [optG (seq [trivias dbg, nodeP .BLOCK_IF_ELSE (seq [lParen, tp dbg (keyword t!"else"),
            many dbg (retry dbg ins []), rParen dbg])]), rParen dbg]) (seq [optG (seq [trivias dbg, nodeP .BLOCK_IF_ELSE (seq [lParen, tp dbg (keyword t!"else"),
            many dbg (retry dbg ins' []), rParen dbg])]), rParen dbg]) := by
      refine cl_seq_cons0 (cl_optG (st := true) (cl_trivSeq (cl_node ?_))) (by pcl)
      refine cl_seq_consC (by pcl) ?_
      pcl
    refine cl_bind (st1 := false) (st2 := false) (cl_ifCondsThen hi) (fun _ => mono_bind (mono_map t1.mono) fun _ => mono_map t2.mono) fun c r a a' hv _ s s' hl ha => ?_
    obtain ⟨c1, c2, rfl, h1, h2⟩ := hv
    refine Cl.run (V := fun d r' x y => r = d ++ r' → GV2 (c1 ++ c2 ++ d) r' x y) (n := n - 1 - 1) ?_ (by omega) ha fun d r' x y e h => h e
    refine cl_bind (V := fun d r' x y => r = d ++ r' → GV2 (c1 ++ c2 ++ d) r' x y) (st1 := false) (st2 := false) (cl_map t1 fun d r' x y hxy e => ?_) (fun _ => mono_map t2.mono)
      fun d r1 x y hv _ s s' hl ha => ?_
    · subst e
      rw [List.append_assoc]
      refine GV2.append ?_ ((h2.append hxy).node _)
      simpa using h1
    · refine Cl.run (cl_map (W := fun e r' u v => ∃ u' v', u = x ++ u' ∧ v = y ++ v' ∧ GV2 e r' u' v') t2 fun e r' u v huv => ⟨u, v, rfl, rfl, huv⟩) (by omega) ha fun e r' u v he h hr => ?_
      obtain ⟨u', v', rfl, rfl, h⟩ := h
      rw [← List.append_assoc]
      subst he
      exact (hv (by rw [hr]; simp)).append h

theorem cl_blockInstr {ins ins' : G} (h : Cl J true GV2 true (n - 1) ins ins') : Cl J true GV2 st n (blockInstr dbg ins) (blockInstr dbg ins') := by
  unfold blockInstr
  have hpw : PW J true st n (fun w => if w == t!"if" then blockIf dbg ins else if w == t!"loop" then blockLike dbg ins t!"loop" .BLOCK_LOOP
      else if w == t!"block" then blockLike dbg ins t!"block" .BLOCK_BLOCK else P.fail) (fun w => if w == t!"if" then blockIf dbg ins' else if w == t!"loop" then blockLike dbg ins' t!"loop" .BLOCK_LOOP
      else if w == t!"block" then blockLike dbg ins' t!"block" .BLOCK_BLOCK else P.fail) :=
    pw_ite (by decide) (cl_blockIf h) (pw_ite (by decide) (cl_blockLike h (by decide)) (pw_ite (by decide) (cl_blockLike h (by decide)) pw_fail))
  refine cl_look (V0 := fun c a b => c = [] ∧ ∃ d, WV d a b) (fun _ => ?_) (fun _ _ _ h => h.1) ?_ hpw.mono fun a a' hv => ?_
  · refine (sim_peek (V := fun _ a b => ∃ d, WV d a b) (st := true) ?_).mono fun _ _ _ h => ⟨h.1, by obtain ⟨_, _, h⟩ := h; exact h⟩
    refine sim_bind (V := fun _ _ _ => True) (st1 := false) (st2 := true) (sim_opt (V := fun _ _ _ => True) (st := true) ?_ (fun _ _ _ _ => trivial) trivial)
      fun _ _ _ _ _ m _ => sim_words.mono fun d _ _ h => ⟨d, h⟩
    exact sim_bind (st1 := true) (st2 := false) (sim_lit (by decide)) fun _ _ _ _ _ m _ => gsim_trivias.any
  · refine keeps_lex (dbg := dbg) fun _ => lex_peek (Q := fun _ _ => True) (lex_bind (Q := fun _ _ => True) (lex_opt (Q := fun _ _ => True) ?_ (fun _ _ _ => trivial) trivial)
      fun _ _ _ => lex_word.mono fun _ _ _ => trivial)
    exact lex_bind (lex_lit _) fun _ _ _ => lex_trivias.mono fun _ _ _ => trivial
  · obtain ⟨_, d, hd⟩ := hv
    exact hpw.sim d a a' hd

theorem cl_instrF : ∀ f f' n, n ≤ f → n ≤ f' → Cl J true GV2 true n (instrF dbg f) (instrF dbg f')
  | 0, _, _, h, _ => ⟨.of (fun _ _ _ h => by cases h) (fun _ _ _ h => by cases h), fun ss _ _ hl => by omega⟩
  | f + 1, 0, n, h, h' => by
    obtain rfl : n = 0 := by omega
    have ih := cl_instrF f 0 0 (by omega) (Nat.le_refl _)
    exact ⟨(cl_alt_two (cl_blockInstr (n := 0) ih (st := true)) (cl_plainInstr (n := 0) ih)).mono, fun ss _ _ hl => by omega⟩
  | f + 1, f' + 1, n, h, h' => by
    have ih := cl_instrF f f' (n - 1) (by omega) (by omega)
    exact cl_alt_two (cl_blockInstr ih) (cl_plainInstr ih)

theorem cl_instr : Cl J true GV2 st n (instr dbg) (instr dbg) :=
  Cl.weak ⟨.of (fun s a s' h he => (cl_instrF (J := J) _ _ 0 (Nat.zero_le _) (Nat.zero_le 0)).mono.ok h he) (fun s e s' h he => (cl_instrF (J := J) _ _ 0 (Nat.zero_le _) (Nat.zero_le 0)).mono.fail h he),
    fun ss s s' _ ha hb => (cl_instrF _ _ (ss.length + 1) ha.at_.fuel.1 ha.at_.fuel.2).sim ss s s' (Nat.lt_succ_self _) ha hb⟩

/-! ### Module fields -/

theorem cl_peekParen {p q : G} (h : Cl J b GV2 st n p q) : Cl J b GV2 st n (bind (peek (lit ['('])) fun _ => p) (bind (peek (lit ['('])) fun _ => q) :=
  cl_look (V0 := fun c _ _ => c = []) (fun _ => (sim_peek (sim_lit (by decide))).mono fun _ _ _ h => h.1) (fun _ _ _ h => h)
    (keeps_lex (dbg := false) fun _ => lex_peek (lex_lit _)) (fun _ => h.mono) fun _ _ _ => h

theorem cl_elemExpr : Cl J true GV2 st n (elemExpr dbg) (elemExpr dbg) := by
  unfold elemExpr
  refine cl_alt_two (cl_node ?_) (cl_node (cl_peekParen cl_instr))
  pcl; with_reducible exact cl_instr

theorem cl_elemList : Cl J true GV2 st n (elemList dbg) (elemList dbg) := by
  unfold elemList
  pcl <;> first | with_reducible exact cl_index | with_reducible exact cl_elemExpr

/-- Looking at the character after the trivia, and going on. -/
theorem cl_trivAny {f g : Char → G} (h : ∀ c, Cl J b GV2 st n (f c) (g c)) :
    Cl J b GV2 st n (bind (peek (bind (trivias dbg) fun _ => any)) f) (bind (peek (bind (trivias dbg) fun _ => any)) g) :=
  cl_look (fun _ => sim_peekThenAny gsim_trivias) (fun _ _ _ h => h.1) (keeps_lex fun _ => lex_peek (Q := fun _ _ => True) (lex_bind lex_trivias fun _ _ _ => lex_any.mono fun _ _ _ => trivial))
    (fun c => (h c).mono) fun a a' hv => by
      obtain ⟨_, rfl⟩ := hv
      exact h a

theorem cl_elem : Cl J true GV2 st n (elem dbg) (elem dbg) := by
  unfold elem
  refine cl_node (cl_seq_consC (by pcl) <| cl_seq_cons0 (by pcl) (cl_seq_cons0 ?_ (by pcl)))
  refine cl_trivAny fun c => ?_
  pcl <;> first | with_reducible exact cl_index | with_reducible exact cl_elemExpr

theorem cl_offset : Cl J true GV2 st n (offset dbg) (offset dbg) := by
  unfold offset
  refine cl_context (cl_alt_two (cl_node ?_) (cl_node (cl_peekParen cl_instr)))
  pcl; with_reducible exact cl_instr

theorem cl_moduleFieldData : Cl J true GV2 st n (moduleFieldData dbg) (moduleFieldData dbg) := by
  unfold moduleFieldData; pcl <;> first | with_reducible exact cl_memUse | with_reducible exact cl_offset

theorem cl_moduleFieldElem : Cl J true GV2 st n (moduleFieldElem dbg) (moduleFieldElem dbg) := by
  unfold moduleFieldElem
  refine cl_node (cl_seq_consC (by pcl) <| cl_seq_cons0 (by pcl) (cl_seq_cons0 (by pcl)
    (cl_seq_cons0 ?_ (by pcl))))
  refine cl_alt_three ?_ ?_ ?_ <;> pcl <;>
    first | with_reducible exact cl_elemList | with_reducible exact cl_tableUse | with_reducible exact cl_offset

theorem cl_moduleFieldExport : Cl J true GV2 st n (moduleFieldExport dbg) (moduleFieldExport dbg) := by
  unfold moduleFieldExport; pcl <;> first | with_reducible exact cl_nameP | with_reducible exact cl_exportDesc

theorem cl_moduleFieldFunc : Cl J true GV2 st n (moduleFieldFunc dbg) (moduleFieldFunc dbg) := by
  unfold moduleFieldFunc
  pcl <;> first | with_reducible exact cl_importP | with_reducible exact cl_exportP | with_reducible exact cl_typeUse | with_reducible exact cl_localP | with_reducible exact cl_instr

theorem cl_moduleFieldGlobal : Cl J true GV2 st n (moduleFieldGlobal dbg) (moduleFieldGlobal dbg) := by
  unfold moduleFieldGlobal
  pcl <;> first | with_reducible exact cl_importP | with_reducible exact cl_exportP | with_reducible exact cl_globalType | with_reducible exact cl_instr

theorem cl_moduleFieldImport : Cl J true GV2 st n (moduleFieldImport dbg) (moduleFieldImport dbg) := by
  unfold moduleFieldImport
  pcl <;> first | with_reducible exact cl_moduleName | with_reducible exact cl_nameP | with_reducible exact cl_importDesc

theorem cl_moduleFieldMemory : Cl J true GV2 st n (moduleFieldMemory dbg) (moduleFieldMemory dbg) := by
  unfold moduleFieldMemory
  refine cl_node (cl_seq_consC (by pcl) <| cl_seq_cons0 (by pcl) (cl_seq_cons0 (by pcl)
    (cl_seq_cons0 (cl_optG (st := true) (cl_tp cl_importP)) (cl_seq_cons0 (cl_optG (st := true)
      (cl_tp cl_exportP)) (cl_seq_cons0 ?_ (by pcl))))))
  refine cl_trivAny fun c => ?_
  pcl <;> first | with_reducible exact cl_dataP | with_reducible exact cl_memoryType

theorem cl_moduleFieldStart : Cl J true GV2 st n (moduleFieldStart dbg) (moduleFieldStart dbg) := by
  unfold moduleFieldStart; pcl; with_reducible exact cl_index

theorem cl_moduleFieldTable : Cl J true GV2 st n (moduleFieldTable dbg) (moduleFieldTable dbg) := by
  unfold moduleFieldTable
  pcl <;> first | with_reducible exact cl_importP | with_reducible exact cl_exportP | with_reducible exact cl_elem | with_reducible exact cl_tableType

theorem cl_moduleFieldType : Cl J true GV2 st n (moduleFieldType dbg) (moduleFieldType dbg) := by
  unfold moduleFieldType; pcl; with_reducible exact cl_funcType

theorem cl_moduleField : Cl J true GV2 st n (moduleField dbg) (moduleField dbg) := by
  unfold moduleField
  exact cl_context (cl_parenWord (pw_ite (by decide) cl_moduleFieldFunc (pw_ite (by decide) cl_moduleFieldType (pw_ite (by decide) cl_moduleFieldExport
    (pw_ite (by decide) cl_moduleFieldImport (pw_ite (by decide) cl_moduleFieldStart (pw_ite (by decide) cl_moduleFieldData
      (pw_ite (by decide) cl_moduleFieldTable (pw_ite (by decide) cl_moduleFieldMemory (pw_ite (by decide) cl_moduleFieldGlobal
        (pw_ite (by decide) cl_moduleFieldElem pw_fail)))))))))))

theorem cl_moduleP : Cl J true GV2 st n (moduleP dbg) (moduleP dbg) := by
  unfold moduleP; pcl; with_reducible exact cl_moduleField

theorem cl_modules : Cl J b GV2 false n (many dbg (retryOnce dbg (moduleP dbg) [])) (many dbg (retryOnce dbg (moduleP dbg) [])) :=
  cl_many (cl_retryOnce cl_moduleP)

end Verif.Clean
