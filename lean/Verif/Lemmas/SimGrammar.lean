import Lean
import Verif.Lemmas.SimTok
import Verif.Model.Grammar
/-!
Helper lemmas: the grammar on two texts that differ in names only.
-/
namespace Verif.Sim
open P

variable {bs dbg : Bool} {n : Nat} {st : Bool}

theorem sim_parenWord : Sim bs (fun c a b => c = [] ∧ ∃ d, WV d a b) false n (peekParenWord dbg) (peekParenWord dbg) := by
  refine (sim_peek (V := fun _ a b => ∃ d, WV d a b) (st := true) ?_).mono fun _ _ _ h => ⟨h.1, by obtain ⟨_, _, h⟩ := h; exact h⟩
  refine sim_bind (st1 := true) (st2 := true) (sim_lit (by decide)) fun _ _ _ _ _ m _ => ?_
  exact sim_bind (st1 := false) (st2 := true) gsim_trivias fun _ _ _ _ _ m _ => sim_words.mono fun d _ _ h => ⟨d, h⟩

/-- Looking at a word, and going on. -/
theorem gsim_parenWord {f g : Text → G} (h : ∀ d a b, WV d a b → ∀ m ≤ n, Sim bs GV st m (f a) (g b)) :
    Sim bs GV st n (bind (peekParenWord dbg) f) (bind (peekParenWord dbg) g) :=
  sim_bind (st1 := false) (st2 := st) sim_parenWord (fun c a b hc _ m hm => by
    obtain ⟨rfl, d, hd⟩ := hc
    exact h d a b hd m (by omega)) (by simp)

/-- A word turned into one token. -/
theorem gsim_wordMap {f : Text → Option (List Green)} (hf : ∀ w b, f w = some b → '$' ∉ w ∧ ∃ k, b = [.tok k w]) :
    Sim bs GV true n (verifyMap f word) (verifyMap f word) :=
  sim_verifyMap sim_words fun c a b h => by
    rcases h.2 with rfl | ⟨h1, h2⟩
    · cases hfa : f a with
      | none => exact .inl ⟨rfl, rfl⟩
      | some x =>
        obtain ⟨_, k, rfl⟩ := hf _ _ hfa
        exact .inr ⟨_, _, rfl, rfl, GV.tok k h.1⟩
    · refine .inl ⟨?_, ?_⟩
      · cases hfa : f a with
        | none => rfl
        | some x => exact absurd h1 (hf _ _ hfa).1
      · cases hfa : f b with
        | none => rfl
        | some x => exact absurd h2 (hf _ _ hfa).1

theorem gsim_refType : Sim bs GV st n refType refType :=
  (sim_context (gsim_wordMap fun w b h => by
    split at h
    · rename_i hw
      cases h
      simp only [Bool.or_eq_true, beq_iff_eq] at hw
      exact ⟨by rcases hw with rfl | rfl <;> decide, _, rfl⟩
    · cases h)).weak

theorem gsim_heapType : Sim bs GV st n heapType heapType :=
  (gsim_wordMap fun w b h => by
    split at h
    · rename_i hw
      cases h
      simp only [Bool.or_eq_true, beq_iff_eq] at hw
      exact ⟨by rcases hw with rfl | rfl <;> decide, _, rfl⟩
    · cases h).weak

theorem gsim_share : Sim bs GV st n share share :=
  (gsim_tok ((sim_verify sim_words fun _ _ _ h => by rw [h.beq (by decide), h.beq (by decide)]).mono fun _ _ _ h => h.1)).weak

theorem gsim_instrName : Sim bs GV st n instrName instrName := (gsim_tok (sim_context sim_word)).weak

theorem gsim_memArg : Sim bs GV st n memArg memArg := by
  refine (gsim_tok (sim_taken (V := fun _ _ _ => True) (st := true) ?_)).weak
  refine sim_bind (V := fun _ _ _ => True) (st1 := true) (st2 := true)
    (sim_alt_two (sim_lit (by decide)).any (sim_lit (by decide)).any) fun _ _ _ _ _ m _ => ?_
  exact sim_bind (st1 := true) (st2 := true) (sim_lit (by decide)) fun _ _ _ _ _ m _ => sim_unsignedIntImpl.any

theorem valTypeTok_plain {w : Text} {g : Green} (h : valTypeTok w = some g) : '$' ∉ w ∧ ∃ k, g = .tok k w := by
  unfold valTypeTok at h
  split at h
  · rename_i hw
    cases h
    simp only [Bool.or_eq_true, beq_iff_eq] at hw
    exact ⟨by rcases hw with ((rfl | rfl) | rfl) | rfl <;> decide, _, rfl⟩
  · split at h
    · rename_i hw
      cases h
      simp only [beq_iff_eq] at hw
      exact ⟨by rw [hw]; decide, _, rfl⟩
    · split at h
      · rename_i hw
        cases h
        simp only [Bool.or_eq_true, beq_iff_eq] at hw
        exact ⟨by rcases hw with rfl | rfl <;> decide, _, rfl⟩
      · cases h

theorem gsim_valType : Sim bs GV st n valType valType := by
  refine Sim.weak (sim_map (V := fun c a b => GV c [a] [b]) (sim_context (sim_verifyMap sim_words fun c a b h => ?_)) fun _ _ _ h => h.node _)
  rcases h.2 with rfl | ⟨h1, h2⟩
  · cases hfa : valTypeTok a with
    | none => exact .inl ⟨rfl, rfl⟩
    | some x =>
      obtain ⟨_, k, rfl⟩ := valTypeTok_plain hfa
      exact .inr ⟨_, _, rfl, rfl, GV.tok k h.1⟩
  · refine .inl ⟨?_, ?_⟩
    · cases hfa : valTypeTok a with
      | none => rfl
      | some x => exact absurd h1 (valTypeTok_plain hfa).1
    · cases hfa : valTypeTok b with
      | none => rfl
      | some x => exact absurd h2 (valTypeTok_plain hfa).1

theorem gsim_trivSeq {p q : G} (hp : Sim bs GV st n p q) : Sim bs GV st n (seq [trivias dbg, p]) (seq [trivias dbg, q]) := gsim_tp hp

open Lean Elab Tactic in
/-- One step of `psim`: dispatches on the head symbol of the parser. -/
elab "psim1" : tactic => withMainContext do
  let t := (← instantiateMVars (← (← getMainGoal).getType)).consumeMData
  unless t.isAppOf ``Sim do throwError "not a Sim goal"
  let p := t.appArg!
  match p.getAppFn with
  | .const n _ =>
    match n with
    | ``lParen => evalTactic (← `(tactic| with_reducible (exact gsim_lParen)))
    | ``ident => evalTactic (← `(tactic| with_reducible (exact gsim_ident)))
    | ``string => evalTactic (← `(tactic| with_reducible (exact gsim_string)))
    | ``unsignedInt => evalTactic (← `(tactic| with_reducible (exact gsim_unsignedInt)))
    | ``int => evalTactic (← `(tactic| with_reducible (exact gsim_int)))
    | ``float => evalTactic (← `(tactic| with_reducible (exact gsim_float)))
    | ``refType => evalTactic (← `(tactic| with_reducible (exact gsim_refType)))
    | ``heapType => evalTactic (← `(tactic| with_reducible (exact gsim_heapType)))
    | ``share => evalTactic (← `(tactic| with_reducible (exact gsim_share)))
    | ``instrName => evalTactic (← `(tactic| with_reducible (exact gsim_instrName)))
    | ``memArg => evalTactic (← `(tactic| with_reducible (exact gsim_memArg)))
    | ``keyword => evalTactic (← `(tactic| exact gsim_keyword (by first | assumption | decide)))
    | ``valType => evalTactic (← `(tactic| with_reducible (exact gsim_valType)))
    | ``rParen => evalTactic (← `(tactic| with_reducible (exact gsim_rParen)))
    | ``trivias => evalTactic (← `(tactic| with_reducible (exact gsim_trivias)))
    | ``P.pure => evalTactic (← `(tactic| with_reducible (exact gsim_nil)))
    | ``P.fail => evalTactic (← `(tactic| with_reducible (exact sim_fail)))
    | ``nodeP => evalTactic (← `(tactic| with_reducible (refine gsim_node ?_)))
    | ``P.context => evalTactic (← `(tactic| with_reducible (refine sim_context ?_)))
    | ``tp => evalTactic (← `(tactic| with_reducible (refine gsim_tp ?_)))
    | ``retryOnce => evalTactic (← `(tactic| refine gsim_retryOnce ?_))
    | ``retry => evalTactic (← `(tactic| refine gsim_retry ?_))
    | ``optG => evalTactic (← `(tactic| with_reducible (refine gsim_optG (st := true) ?_)))
    | ``must => evalTactic (← `(tactic| with_reducible (refine gsim_must (st := true) ?_)))
    | ``many => evalTactic (← `(tactic| with_reducible (refine gsim_many (st := true) ?_)))
    | ``many1 => evalTactic (← `(tactic| with_reducible (refine gsim_many1 ?_)))
    | ``P.alt => evalTactic (← `(tactic| with_reducible (first | refine sim_alt_two ?_ ?_ | refine sim_alt_three ?_ ?_ ?_)))
    | ``seq => evalTactic (← `(tactic| with_reducible (first | exact gsim_seq_nil | refine gsim_trivSeq ?_ | refine gsim_seq_cons0 ?_ ?_ | refine gsim_seq_consC ?_ (fun m hm => ?_))))
    | ``ite => evalTactic (← `(tactic| with_reducible (refine sim_ite rfl ?_ ?_)))
    | _ => evalTactic (← `(tactic| with_reducible assumption))
  | _ => evalTactic (← `(tactic| with_reducible assumption))

/-- Discharges `Sim` goals for parsers built from the combinators. -/
macro "psim" : tactic => `(tactic| repeat' psim1)

theorem gsim_param : Sim false GV st n (param dbg) (param dbg) := by unfold param; psim
theorem gsim_result : Sim false GV st n (result dbg) (result dbg) := by unfold result; psim
theorem gsim_funcType : Sim false GV st n (funcType dbg) (funcType dbg) := by
  unfold funcType; psim <;> first | with_reducible exact gsim_param | with_reducible exact gsim_result
theorem gsim_limits : Sim false GV st n (limits dbg) (limits dbg) := by unfold limits; psim
theorem gsim_tableType : Sim false GV st n (tableType dbg) (tableType dbg) := by
  unfold tableType; psim; with_reducible exact gsim_limits
theorem gsim_memoryType : Sim false GV st n (memoryType dbg) (memoryType dbg) := by
  unfold memoryType; psim; with_reducible exact gsim_limits
theorem gsim_globalType : Sim false GV st n (globalType dbg) (globalType dbg) := by unfold globalType; psim
theorem gsim_index : Sim false GV st n index index := by unfold index; psim
theorem gsim_typeUse : Sim false GV st n (typeUse dbg) (typeUse dbg) := by
  unfold typeUse; psim <;> first | with_reducible exact gsim_param | with_reducible exact gsim_result | with_reducible exact gsim_index
theorem gsim_localP : Sim false GV st n (localP dbg) (localP dbg) := by unfold localP; psim
theorem gsim_moduleName : Sim false GV st n moduleName moduleName := by unfold moduleName; psim
theorem gsim_nameP : Sim false GV st n nameP nameP := by unfold nameP; psim
theorem gsim_importP : Sim false GV st n (importP dbg) (importP dbg) := by
  unfold importP; psim <;> first | with_reducible exact gsim_moduleName | with_reducible exact gsim_nameP
theorem gsim_exportP : Sim false GV st n (exportP dbg) (exportP dbg) := by
  unfold exportP; psim <;> with_reducible exact gsim_nameP
theorem gsim_importDescGlobalType : Sim false GV st n (importDescGlobalType dbg) (importDescGlobalType dbg) := by
  unfold importDescGlobalType; psim; with_reducible exact gsim_globalType
theorem gsim_importDescMemoryType : Sim false GV st n (importDescMemoryType dbg) (importDescMemoryType dbg) := by
  unfold importDescMemoryType; psim; with_reducible exact gsim_memoryType
theorem gsim_importDescTableType : Sim false GV st n (importDescTableType dbg) (importDescTableType dbg) := by
  unfold importDescTableType; psim; with_reducible exact gsim_tableType
theorem gsim_importDescTypeUse : Sim false GV st n (importDescTypeUse dbg) (importDescTypeUse dbg) := by
  unfold importDescTypeUse; psim; with_reducible exact gsim_typeUse
theorem gsim_importDesc : Sim false GV st n (importDesc dbg) (importDesc dbg) := by
  unfold importDesc
  refine sim_context (gsim_parenWord fun d a b hw m _ => ?_)
  exact sim_ite (hw.beq (by decide)) gsim_importDescTypeUse (sim_ite (hw.beq (by decide)) gsim_importDescGlobalType
    (sim_ite (hw.beq (by decide)) gsim_importDescMemoryType (sim_ite (hw.beq (by decide)) gsim_importDescTableType sim_fail)))
theorem gsim_exportDescVariant {kw : Text} {k : Kind} (hk : '$' ∉ kw) : Sim false GV st n (exportDescVariant dbg kw k) (exportDescVariant dbg kw k) := by
  unfold exportDescVariant
  psim
  with_reducible exact gsim_index
theorem gsim_exportDesc : Sim false GV st n (exportDesc dbg) (exportDesc dbg) := by
  unfold exportDesc
  refine sim_context (gsim_parenWord fun d a b hw m _ => ?_)
  refine sim_ite (hw.beq (by decide)) ?_ (sim_ite (hw.beq (by decide)) ?_ (sim_ite (hw.beq (by decide)) ?_ (sim_ite (hw.beq (by decide)) ?_ sim_fail))) <;>
    exact gsim_exportDescVariant (by decide)
theorem gsim_memUse : Sim false GV st n (memUse dbg) (memUse dbg) := by unfold memUse; psim; with_reducible exact gsim_index
theorem gsim_tableUse : Sim false GV st n (tableUse dbg) (tableUse dbg) := by unfold tableUse; psim; with_reducible exact gsim_index
theorem gsim_dataP : Sim false GV st n (dataP dbg) (dataP dbg) := by unfold dataP; psim

/-! ### Instructions -/

theorem gsim_operand {ins ins' : G} {b : Bool} (h : Sim false GV true n ins ins') : Sim false GV st n (operand dbg ins b) (operand dbg ins' b) := by
  unfold operand
  refine sim_context (gsim_node (sim_bind (st1 := false) (st2 := st) sim_peekAny (fun c x y hxy _ m hm => ?_) (by simp)))
  obtain ⟨rfl, rfl⟩ := hxy
  simp only [List.nil_append]
  have hp : Sim false GV st m (bind (peekParenWord dbg) fun w => if w == t!"type" then typeUse dbg else if b then ins else P.fail)
      (bind (peekParenWord dbg) fun w => if w == t!"type" then typeUse dbg else if b then ins' else P.fail) :=
    gsim_parenWord fun d a b' hw m' hm' => sim_ite (hw.beq (by decide)) gsim_typeUse (sim_ite rfl (h.le (by omega)).weak sim_fail)
  psim

theorem gsim_plainInstr {ins ins' : G} (h : ∀ m < n, Sim false GV true m ins ins') : Sim false GV st n (plainInstr dbg ins) (plainInstr dbg ins') := by
  unfold plainInstr
  psim <;> exact gsim_operand (h _ (by omega))

theorem gsim_blockType : Sim false GV st n (blockType dbg) (blockType dbg) := by
  unfold blockType; psim <;> first | with_reducible exact gsim_result | with_reducible exact gsim_typeUse

theorem sim_peekEnd {ends : List Text} (he : ∀ e ∈ ends, '$' ∉ e) : Sim bs (fun c _ _ => c = []) false n (peekEnd dbg ends) (peekEnd dbg ends) := by
  refine (sim_peek (V := fun _ _ _ => True) (st := true) (sim_map (V := fun _ _ _ => True) ?_ fun _ _ _ h => h)).mono fun _ _ _ h => h.1
  refine sim_bind (st1 := false) (st2 := true) gsim_trivias fun _ _ _ _ _ m _ => ?_
  exact sim_alt_two (sim_verify sim_words fun _ _ _ h => h.any he).any (sim_lit (by decide)).any

theorem gsim_instrsTill {ins ins' : G} {ends : List Text} (h : Sim false GV true n ins ins') (he : ∀ e ∈ ends, '$' ∉ e := by decide) :
    Sim false GV false n (instrsTill dbg ins ends) (instrsTill dbg ins' ends) :=
  sim_map (V := fun c (a b : List (List Green) × Unit) => GV c a.1.flatten b.1.flatten)
    (sim_repeatTill (gsim_retryOnce (st := true) h) (sim_peekEnd he) (fun _ _ _ _ => GV.nil) fun _ _ _ _ _ _ h1 h2 => h1.append h2) fun _ _ _ h => h

theorem gsim_blockLike {ins ins' : G} {kw : Text} {k : Kind} (h : ∀ m < n, Sim false GV true m ins ins') (hkw : '$' ∉ kw) :
    Sim false GV st n (blockLike dbg ins kw k) (blockLike dbg ins' kw k) := by
  unfold blockLike
  refine sim_alt_two (gsim_node ?_) (gsim_node ?_)
  · refine gsim_seq_consC (gsim_keyword hkw) fun m hm => ?_
    refine gsim_seq_cons0 (gsim_optG (st := true) ?_) (gsim_seq_cons0 (gsim_optG (st := true) ?_)
      (gsim_seq_cons0 (gsim_instrsTill (h m hm)) ?_)) <;> psim
    with_reducible exact gsim_blockType
  · refine gsim_seq_consC (by psim) fun m hm => ?_
    refine gsim_seq_consC (gsim_tp (gsim_keyword hkw)) fun m' hm' => ?_
    have := h m' (by omega)
    psim
    with_reducible exact gsim_blockType

theorem sim_ifCondsThen {ins ins' : G} (h : Sim false GV true n ins ins') :
    Sim false (fun c (a b : List Green × List Green) => ∃ c1 c2, c = c1 ++ c2 ∧ GV c1 a.1 b.1 ∧ GV c2 a.2 b.2) false n
      (ifCondsThen dbg ins) (ifCondsThen dbg ins') := by
  refine sim_map (V := fun c (a b : List (List Green) × List Green × List Green) => ∃ c1 c2, c = c1 ++ c2 ∧ GV c1 (a.1.flatten ++ a.2.1) (b.1.flatten ++ b.2.1) ∧ GV c2 a.2.2 b.2.2)
    (sim_repeatTill (gsim_retry (st := true) h)
      (sim_bind (W := fun c (a b : List Green × List Green) => ∃ c1 c2, c = c1 ++ c2 ∧ GV c1 a.1 b.1 ∧ GV c2 a.2 b.2) (st1 := false) (st2 := true) gsim_trivias fun c x y hxy _ m _ =>
        sim_map (V := GV) (by psim) fun d u v huv => ⟨c, d, rfl, hxy, huv⟩)
      (fun c a b h => h) ?_) fun _ _ _ h => h
  rintro c a b d x y h1 ⟨c1, c2, rfl, h2, h3⟩
  refine ⟨c ++ c1, c2, by simp, ?_, h3⟩
  simp only [List.flatten_cons, List.append_assoc]
  exact h1.append h2

theorem seq_single (p : G) : seq [p] = p := by
  funext s
  show bind p (fun a => map (a ++ ·) (pure [])) s = p s
  unfold P.bind P.map P.pure P.bind
  cases p s <;> simp

theorem gsim_blockIf {ins ins' : G} (h : ∀ m < n, Sim false GV true m ins ins') : Sim false GV st n (blockIf dbg ins) (blockIf dbg ins') := by
  unfold blockIf
  refine sim_alt_two (gsim_node ?_) (gsim_node ?_)
  · refine gsim_seq_consC (by psim) fun m hm => ?_
    have hi := h m hm
    refine gsim_seq_cons0 (gsim_optG (st := true) (by psim)) (gsim_seq_cons0 (gsim_optG (st := true)
      (gsim_tp gsim_blockType)) (gsim_seq_cons0 (gsim_node (gsim_instrsTill hi)) ?_))
    refine gsim_seq_cons0 (gsim_optG (st := true) (gsim_trivSeq (gsim_node ?_))) (by psim)
    refine gsim_seq_consC (by psim) fun m' hm' => ?_
    refine gsim_seq_cons0 (by psim) (gsim_seq_cons0 (gsim_instrsTill (hi.le (by omega))) gsim_seq_nil)
  · refine gsim_seq_consC (by psim) fun m hm => ?_
    have hi := h m hm
    refine gsim_seq_consC (by psim) fun m' hm' => ?_
    have hi' := hi.le (Nat.le_of_lt hm')
    refine gsim_seq_cons0 (by psim) (gsim_seq_cons0 (gsim_optG (st := true) (gsim_tp gsim_blockType)) ?_)
    rw [seq_single, seq_single]
    refine sim_bind (st1 := false) (st2 := false) (sim_ifCondsThen hi') fun c a b hc _ m2 hm2 => ?_
    obtain ⟨c1, c2, rfl, h1, h2⟩ := hc
    have hi2 := hi'.le (show m2 ≤ m' by omega)
    refine sim_bind (V := fun d x y => GV (c1 ++ c2 ++ d) x y) (st1 := false) (st2 := false) ?_ fun d x y hxy _ m3 hm3 => ?_
    · refine sim_map (V := GV) (st := false) (by psim) fun d x y hxy => ?_
      rw [List.append_assoc]
      exact h1.append ((h2.append hxy).node _)
    · refine sim_map (V := GV) (st := false) ?_ fun e u v huv => by
        rw [← List.append_assoc]; exact hxy.append huv
      refine gsim_seq_cons0 (gsim_optG (st := true) (gsim_trivSeq (gsim_node ?_))) (by psim)
      refine gsim_seq_consC (by psim) fun m4 hm4 => ?_
      have := hi2.le (show m4 ≤ m2 by omega)
      psim

theorem gsim_blockInstr {ins ins' : G} (h : ∀ m < n, Sim false GV true m ins ins') : Sim false GV st n (blockInstr dbg ins) (blockInstr dbg ins') := by
  unfold blockInstr
  refine sim_bind (V := fun c a b => c = [] ∧ ∃ d, WV d a b) (st1 := false) (st2 := st) ?_ (fun c a b hc _ m hm => ?_) (by simp)
  · refine (sim_peek (V := fun _ a b => ∃ d, WV d a b) (st := true) ?_).mono fun _ _ _ h => ⟨h.1, by obtain ⟨_, _, h⟩ := h; exact h⟩
    refine sim_bind (V := fun _ _ _ => True) (st1 := false) (st2 := true) (sim_opt (V := fun _ _ _ => True) (st := true) ?_ (fun _ _ _ _ => trivial) trivial)
      fun _ _ _ _ _ m _ => sim_words.mono fun d _ _ h => ⟨d, h⟩
    exact sim_bind (st1 := true) (st2 := false) (sim_lit (by decide)) fun _ _ _ _ _ m _ => gsim_trivias.any
  · obtain ⟨rfl, d, hw⟩ := hc
    have h' : ∀ k < m, Sim false GV true k ins ins' := fun k hk => h k (by simp at hm; omega)
    exact sim_ite (hw.beq (by decide)) (gsim_blockIf h') (sim_ite (hw.beq (by decide)) (gsim_blockLike h' (by decide))
      (sim_ite (hw.beq (by decide)) (gsim_blockLike h' (by decide)) sim_fail))

theorem gsim_instrF : ∀ f f' n, n < f → n < f' → Sim false GV true n (instrF dbg f) (instrF dbg f')
  | 0, _, _, h, _ => by omega
  | _, 0, _, _, h => by omega
  | f + 1, f' + 1, n, h, h' => by
    have ih : ∀ m < n, Sim false GV true m (instrF dbg f) (instrF dbg f') := fun m hm => gsim_instrF f f' m (by omega) (by omega)
    exact sim_alt_two (gsim_blockInstr ih) (gsim_plainInstr ih)

theorem gsim_instr : Sim false GV st n (instr dbg) (instr dbg) := Sim.weak fun ss s s' _ ha =>
  gsim_instrF _ _ ss.length ha.fuel.1 ha.fuel.2 ss s s' (Nat.le_refl _) ha

/-! ### Module fields -/

theorem gsim_peekParen {p q : G} (h : ∀ m ≤ n, Sim false GV st m p q) : Sim false GV st n (bind (peek (lit ['('])) fun _ => p) (bind (peek (lit ['('])) fun _ => q) :=
  sim_bind (st1 := false) (st2 := st) (sim_peek (sim_lit (by decide))) (fun c _ _ hc _ m hm => by
    obtain ⟨rfl, _⟩ := hc
    exact h m (by omega)) (by simp)

theorem gsim_elemExpr : Sim false GV st n (elemExpr dbg) (elemExpr dbg) := by
  unfold elemExpr
  refine sim_alt_two (gsim_node ?_) (gsim_node (gsim_peekParen fun _ _ => gsim_instr))
  psim; with_reducible exact gsim_instr

theorem gsim_elemList : Sim false GV st n (elemList dbg) (elemList dbg) := by
  unfold elemList
  psim <;> first | with_reducible exact gsim_index | with_reducible exact gsim_elemExpr

/-- Looking at the character after the trivia, and going on. -/
theorem gsim_trivAny {f g : Char → G} (h : ∀ c, ∀ m ≤ n, Sim false GV st m (f c) (g c)) :
    Sim false GV st n (bind (peek (bind (trivias dbg) fun _ => any)) f) (bind (peek (bind (trivias dbg) fun _ => any)) g) :=
  sim_bind (st1 := false) (st2 := st) (sim_peekThenAny gsim_trivias) (fun c a b hc _ m hm => by
    obtain ⟨rfl, rfl⟩ := hc
    exact h a m (by omega)) (by simp)

theorem gsim_elem : Sim false GV st n (elem dbg) (elem dbg) := by
  unfold elem
  refine gsim_node (gsim_seq_consC (by psim) fun m hm => gsim_seq_cons0 (by psim) (gsim_seq_cons0 ?_ (by psim)))
  refine gsim_trivAny fun c m' hm' => ?_
  psim <;> first | with_reducible exact gsim_index | with_reducible exact gsim_elemExpr

theorem gsim_offset : Sim false GV st n (offset dbg) (offset dbg) := by
  unfold offset
  refine sim_context (sim_alt_two (gsim_node ?_) (gsim_node (gsim_peekParen fun _ _ => gsim_instr)))
  psim; with_reducible exact gsim_instr

theorem gsim_moduleFieldData : Sim false GV st n (moduleFieldData dbg) (moduleFieldData dbg) := by
  unfold moduleFieldData; psim <;> first | with_reducible exact gsim_memUse | with_reducible exact gsim_offset

theorem gsim_moduleFieldElem : Sim false GV st n (moduleFieldElem dbg) (moduleFieldElem dbg) := by
  unfold moduleFieldElem
  refine gsim_node (gsim_seq_consC (by psim) fun m hm => gsim_seq_cons0 (by psim) (gsim_seq_cons0 (by psim)
    (gsim_seq_cons0 ?_ (by psim))))
  refine sim_alt_three ?_ ?_ ?_ <;> psim <;>
    first | with_reducible exact gsim_elemList | with_reducible exact gsim_tableUse | with_reducible exact gsim_offset

theorem gsim_moduleFieldExport : Sim false GV st n (moduleFieldExport dbg) (moduleFieldExport dbg) := by
  unfold moduleFieldExport; psim <;> first | with_reducible exact gsim_nameP | with_reducible exact gsim_exportDesc

theorem gsim_moduleFieldFunc : Sim false GV st n (moduleFieldFunc dbg) (moduleFieldFunc dbg) := by
  unfold moduleFieldFunc
  psim <;> first | with_reducible exact gsim_importP | with_reducible exact gsim_exportP | with_reducible exact gsim_typeUse | with_reducible exact gsim_localP | with_reducible exact gsim_instr

theorem gsim_moduleFieldGlobal : Sim false GV st n (moduleFieldGlobal dbg) (moduleFieldGlobal dbg) := by
  unfold moduleFieldGlobal
  psim <;> first | with_reducible exact gsim_importP | with_reducible exact gsim_exportP | with_reducible exact gsim_globalType | with_reducible exact gsim_instr

theorem gsim_moduleFieldImport : Sim false GV st n (moduleFieldImport dbg) (moduleFieldImport dbg) := by
  unfold moduleFieldImport
  psim <;> first | with_reducible exact gsim_moduleName | with_reducible exact gsim_nameP | with_reducible exact gsim_importDesc

theorem gsim_moduleFieldMemory : Sim false GV st n (moduleFieldMemory dbg) (moduleFieldMemory dbg) := by
  unfold moduleFieldMemory
  refine gsim_node (gsim_seq_consC (by psim) fun m hm => gsim_seq_cons0 (by psim) (gsim_seq_cons0 (by psim)
    (gsim_seq_cons0 (gsim_optG (st := true) (gsim_tp gsim_importP)) (gsim_seq_cons0 (gsim_optG (st := true)
      (gsim_tp gsim_exportP)) (gsim_seq_cons0 ?_ (by psim))))))
  refine gsim_trivAny fun c m' hm' => ?_
  psim <;> first | with_reducible exact gsim_dataP | with_reducible exact gsim_memoryType

theorem gsim_moduleFieldStart : Sim false GV st n (moduleFieldStart dbg) (moduleFieldStart dbg) := by
  unfold moduleFieldStart; psim; with_reducible exact gsim_index

theorem gsim_moduleFieldTable : Sim false GV st n (moduleFieldTable dbg) (moduleFieldTable dbg) := by
  unfold moduleFieldTable
  psim <;> first | with_reducible exact gsim_importP | with_reducible exact gsim_exportP | with_reducible exact gsim_elem | with_reducible exact gsim_tableType

theorem gsim_moduleFieldType : Sim false GV st n (moduleFieldType dbg) (moduleFieldType dbg) := by
  unfold moduleFieldType; psim; with_reducible exact gsim_funcType

theorem gsim_moduleField : Sim false GV st n (moduleField dbg) (moduleField dbg) := by
  unfold moduleField
  refine sim_context (gsim_parenWord fun d a b hw m _ => ?_)
  refine sim_ite (hw.beq (by decide)) gsim_moduleFieldFunc (sim_ite (hw.beq (by decide)) gsim_moduleFieldType (sim_ite (hw.beq (by decide)) gsim_moduleFieldExport
    (sim_ite (hw.beq (by decide)) gsim_moduleFieldImport (sim_ite (hw.beq (by decide)) gsim_moduleFieldStart (sim_ite (hw.beq (by decide)) gsim_moduleFieldData
      (sim_ite (hw.beq (by decide)) gsim_moduleFieldTable (sim_ite (hw.beq (by decide)) gsim_moduleFieldMemory (sim_ite (hw.beq (by decide)) gsim_moduleFieldGlobal
        (sim_ite (hw.beq (by decide)) gsim_moduleFieldElem sim_fail)))))))))

theorem gsim_moduleP : Sim false GV st n (moduleP dbg) (moduleP dbg) := by
  unfold moduleP; psim; with_reducible exact gsim_moduleField

theorem gsim_rootChildren : Sim false GV false n (rootChildren dbg) (rootChildren dbg) := by
  unfold rootChildren
  refine gsim_seq_cons0 (gsim_many (st := true) (gsim_retryOnce gsim_moduleP)) (gsim_seq_cons0 (gsim_many (st := true) ?_) gsim_seq_nil)
  exact sim_alt_four gsim_ws gsim_lineComment gsim_blockComment gsim_errorToken

/-- Two texts that differ in names only are parsed alike. -/
theorem parse_sim (dbg : Bool) {ss : List Seg} (ho : Oks false ss) :
    (parse dbg (lft ss) = .panic ∧ parse dbg (rgt ss) = .panic) ∨
    ∃ c r d l l' errs errs', ss = c ++ r ∧ d.Sublist c ∧ GRL d l l' ∧ errs.length = errs'.length ∧
      parse dbg (lft ss) = .tree (.node .ROOT l) errs (lft r) ∧ parse dbg (rgt ss) = .tree (.node .ROOT l') errs' (rgt r) := by
  have := gsim_rootChildren (dbg := dbg) ss (St.init (lft ss)) (St.init (rgt ss)) (Nat.le_refl _) ⟨ho, rfl, rfl, rfl⟩
  unfold parse
  revert this
  cases rootChildren dbg (St.init (lft ss)) <;> cases rootChildren dbg (St.init (rgt ss)) <;> simp only [SimOut] <;>
    try (intro h; first | exact h.elim | exact .inl ⟨trivial, trivial⟩)
  rename_i l s l' s'
  rintro ⟨c, r, rfl, ha, ⟨d, hd, hg⟩, _⟩
  refine .inr ⟨c, r, d, l, l', if r = [] then s.errs else s.errs ++ [Err.new.stamp ⟨[], s.pos + bytes s.rest, s.errs⟩],
    if r = [] then s'.errs else s'.errs ++ [Err.new.stamp ⟨[], s'.pos + bytes s'.rest, s'.errs⟩], rfl, hd, hg, ?_, ?_, ?_⟩
  · split <;> simp [ha.errs]
  · rw [ha.l]
    by_cases hr : r = []
    · subst hr; simp [lft]
    · rw [if_neg hr, if_neg (by simp [lft_nil ha.ok, hr])]
      rfl
  · rw [ha.r]
    by_cases hr : r = []
    · subst hr; simp [rgt]
    · rw [if_neg hr, if_neg (by simp [rgt_nil ha.ok, hr])]
      rfl

end Verif.Sim
