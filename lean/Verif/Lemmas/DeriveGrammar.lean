import Verif.Lemmas.Derive
import Verif.Lemmas.GrammarSat
/-!
Helper lemmas: every parser of the grammar yields elements of the grammar when it records no error.
-/
namespace Verif
open P Spec
open Lean (TSyntax)
open Lean.Meta Lean.Elab.Tactic

variable {st : Bool} {A B : List (List Item)} {dbg : Bool} {p q : G}

theorem snd_alt_consF {st1 st2 : Bool} {ps : List G} (h1 : Snd st1 p A) (h2 : Snd st2 (alt (q :: ps)) B) :
    Snd false (alt (p :: q :: ps)) (A ++ B) :=
  snd_alt_cons
    (.of (fun _ _ _ hp he => ⟨(h1.ok hp he).1, (h1.ok hp he).2.1, by simp⟩) fun _ _ _ hp he => h1.fail hp he)
    (.of (fun _ _ _ hp he => ⟨(h2.ok hp he).1, (h2.ok hp he).2.1, by simp⟩) fun _ _ _ hp he => h2.fail hp he)

theorem Snd.drop (h : Snd st p A) : Snd false p A :=
  .of (fun _ _ _ hp he => ⟨(h.ok hp he).1, (h.ok hp he).2.1, by simp⟩) fun _ _ _ hp he => h.fail hp he

theorem snd_pure_nil : Snd false (P.pure []) [[]] := snd_seq_nil

theorem heads_lParen : Heads lParen := heads_context (heads_tok rfl)
theorem heads_keyword {kw : Text} : Heads (keyword kw) := heads_context (heads_tok rfl)
theorem heads_verifyMap {x : P α} {f : α → Option (List Green)} (h : ∀ w a, f w = some a → ∃ g r, a = g :: r ∧ isBlank g = false) :
    Heads (verifyMap f x) := fun s a s' hp => by
  unfold P.verifyMap at hp
  cases hx : x s <;> simp only [hx] at hp <;> try cases hp
  rename_i w s1
  cases hf : f w <;> simp only [hf] at hp <;> cases hp
  exact h w _ hf
theorem heads_refType : Heads refType := heads_context (heads_verifyMap fun w a h => by
  split at h <;> cases h; exact ⟨_, _, rfl, rfl⟩)
theorem heads_heapType : Heads heapType := heads_verifyMap fun w a h => by split at h <;> cases h; exact ⟨_, _, rfl, rfl⟩
theorem heads_valType : Heads valType := fun s a s' h => by
  obtain ⟨cs, _, rfl⟩ := map_ok h
  exact ⟨_, _, rfl, rfl⟩
theorem heads_typeUse : Heads (typeUse dbg) := heads_alt_cons heads_node (heads_alt_cons heads_node (heads_alt_one heads_node))
theorem heads_plainInstr {ins : G} : Heads (plainInstr dbg ins) := heads_alt_cons heads_node (heads_alt_one heads_node)
theorem heads_blockLike {ins : G} {kw : Text} {k : Kind} : Heads (blockLike dbg ins kw k) :=
  heads_alt_cons heads_node (heads_alt_one heads_node)
theorem heads_blockIf {ins : G} : Heads (blockIf dbg ins) := heads_alt_cons heads_node (heads_alt_one heads_node)
theorem heads_blockInstr {ins : G} : Heads (blockInstr dbg ins) :=
  heads_bind fun _ => heads_ite heads_blockIf (heads_ite heads_blockLike (heads_ite heads_blockLike heads_fail))
theorem heads_instrF : ∀ fuel, Heads (instrF dbg fuel)
  | 0 => fun s a s' h => by cases h
  | _ + 1 => heads_alt_cons heads_blockInstr (heads_alt_one heads_plainInstr)
theorem heads_instr : Heads (instr dbg) := fun s a s' h => heads_instrF _ s a s' h

theorem heads_ident : Heads ident := heads_tok rfl
theorem heads_unsignedInt : Heads unsignedInt := heads_tok rfl
theorem heads_string : Heads string := heads_tok rfl
theorem heads_instrName : Heads instrName := heads_tok rfl
theorem heads_index : Heads index := heads_node
theorem heads_limits : Heads (limits dbg) := heads_node
theorem heads_result : Heads (result dbg) := heads_node

/-- Shows that the elements of a node begin with a token or a node. -/
macro "heads" : tactic => `(tactic| repeat' with_reducible first
  | exact heads_lParen | exact heads_keyword | exact heads_node | exact heads_ident | exact heads_unsignedInt | exact heads_string
  | exact heads_instrName | exact heads_index | exact heads_limits | exact heads_result | exact heads_refType
  | exact heads_valType | exact heads_typeUse | exact heads_instr | apply heads_seq | apply heads_context
  | apply heads_alt_cons | apply heads_alt_one | (apply heads_bind; intro _))

/-- One step of the syntax-directed proof; `l` are lemmas for calls of other parsers. -/
elab "snd1" "[" l:ident,* "]" : tactic => withMainContext do
  let t := (← Lean.instantiateMVars (← getMainTarget)).consumeMData
  let go (stx : TSyntax `tactic) := evalTactic stx
  if t.isAppOf ``Eq then go (← `(tactic| decide +kernel)) else
  if t.isAppOf ``StartOk then
    go (← `(tactic| with_reducible first | (apply startOk_of; heads; done) | apply startOk_noParen (by decide))) else
  unless t.isAppOf ``Snd do throwError "snd1: not a goal about a parser"
  let p := t.getAppArgs[1]!
  let f := p.getAppFn.constName?.getD .anonymous
  for i in l.getElems do
    try go (← `(tactic| with_reducible exact $i)); return catch _ => pure ()
  match f with
  | ``P.fail => go (← `(tactic| exact snd_fail))
  | ``P.pure => go (← `(tactic| exact snd_pure_nil))
  | ``P.context => go (← `(tactic| apply snd_context))
  | ``Verif.seq =>
    if (p.getAppArgs.back!).isAppOf ``List.nil then go (← `(tactic| exact snd_seq_nil))
    else if ((p.getAppArgs.back!).getAppArgs[1]!).isAppOf ``trivias then go (← `(tactic| apply snd_trivSeq))
    else go (← `(tactic| apply snd_seq_cons))
  | ``P.alt =>
    if (p.getAppArgs.back!).getAppArgs.back!.isAppOf ``List.nil then go (← `(tactic| apply snd_alt_one))
    else go (← `(tactic| first | apply snd_alt_consF | apply snd_alt_cons))
  | ``optG => go (← `(tactic| apply snd_optG))
  | ``many => go (← `(tactic| apply snd_many))
  | ``many1 => go (← `(tactic| apply snd_many1))
  | ``nodeP => go (← `(tactic| apply snd_node))
  | ``tp => go (← `(tactic| apply snd_tp))
  | ``retryOnce => go (← `(tactic| apply snd_retryOnce))
  | ``retry => go (← `(tactic| apply snd_retry))
  | ``must => go (← `(tactic| apply snd_must))
  | ``rParen => go (← `(tactic| exact snd_rParen))
  | ``lParen => go (← `(tactic| exact snd_lParen))
  | ``keyword => go (← `(tactic| exact snd_keyword (by decide +kernel)))
  | ``ident => go (← `(tactic| exact snd_ident))
  | ``string => go (← `(tactic| exact snd_string))
  | ``unsignedInt => go (← `(tactic| exact snd_unsignedInt))
  | ``int => go (← `(tactic| exact snd_int))
  | ``float => go (← `(tactic| exact snd_float))
  | ``share => go (← `(tactic| exact snd_share))
  | ``instrName => go (← `(tactic| exact snd_instrName))
  | ``memArg => go (← `(tactic| exact snd_memArg))
  | ``refType => go (← `(tactic| exact snd_refType))
  | ``heapType => go (← `(tactic| exact snd_heapType))
  | ``valType => go (← `(tactic| exact snd_valType))
  | _ => throwError "snd1: {p}"

/-- Repeats `snd1`; `l` are lemmas for the remaining calls. -/
macro "snd" "[" l:ident,* "]" : tactic => `(tactic| repeat' snd1 [$l,*])

/-! ### Types -/

theorem snd_param : Snd true (param dbg) [[.one [.node .PARAM]]] := by unfold param; snd []
theorem snd_result : Snd true (result dbg) [[.one [.node .RESULT]]] := by unfold result; snd []
theorem snd_funcType : Snd true (funcType dbg) [[.one [.node .FUNC_TYPE]]] := by
  unfold funcType; snd [snd_param, snd_result]
theorem snd_limits : Snd true (limits dbg) [[.one [.node .LIMITS]]] := by unfold limits; snd []
theorem snd_tableType : Snd true (tableType dbg) [[.one [.node .TABLE_TYPE]]] := by unfold tableType; snd [snd_limits]
theorem snd_memoryType : Snd true (memoryType dbg) [[.one [.node .MEMORY_TYPE]]] := by unfold memoryType; snd [snd_limits]

/-- Productions of one element, all of the terms. -/
theorem Snd.one {ts : List Term} (h : Snd st p A) (hle : prodsLe A [[.one ts]] = true) : Snd st p [[.one ts]] := h.le hle

theorem snd_globalType : Snd true (globalType dbg) [[.one [.node .GLOBAL_TYPE]]] := by
  unfold globalType; apply Snd.one; snd []
theorem snd_index : Snd true index [[.one [.node .INDEX]]] := by unfold index; snd []
theorem snd_typeUse : Snd true (typeUse dbg) [[.one [.node .TYPE_USE]]] := by
  unfold typeUse; apply Snd.one; snd [snd_param, snd_result, snd_index]
theorem snd_localP : Snd true (localP dbg) [[.one [.node .LOCAL]]] := by unfold localP; snd []

/-! ### Imports and exports -/

theorem snd_moduleName : Snd true moduleName [[.one [.node .MODULE_NAME]]] := by unfold moduleName; snd []
theorem snd_nameP : Snd true nameP [[.one [.node .NAME]]] := by unfold nameP; snd []
theorem snd_importP : Snd true (importP dbg) [[.one [.node .IMPORT]]] := by unfold importP; snd [snd_moduleName, snd_nameP]
theorem snd_exportP : Snd true (exportP dbg) [[.one [.node .EXPORT]]] := by unfold exportP; snd [snd_nameP]
theorem snd_importDescGlobalType : Snd true (importDescGlobalType dbg) [[.one [.node .IMPORT_DESC_GLOBAL_TYPE]]] := by
  unfold importDescGlobalType; snd [snd_globalType]
theorem snd_importDescMemoryType : Snd true (importDescMemoryType dbg) [[.one [.node .IMPORT_DESC_MEMORY_TYPE]]] := by
  unfold importDescMemoryType; snd [snd_memoryType]
theorem snd_importDescTableType : Snd true (importDescTableType dbg) [[.one [.node .IMPORT_DESC_TABLE_TYPE]]] := by
  unfold importDescTableType; snd [snd_tableType]
theorem snd_importDescTypeUse : Snd true (importDescTypeUse dbg) [[.one [.node .IMPORT_DESC_TYPE_USE]]] := by
  unfold importDescTypeUse; snd [snd_typeUse]

theorem mono_parenWord : Mono (bind (lit ['(']) fun _ => bind (trivias dbg) fun _ => word) :=
  mono_lex (Q := fun _ _ => True) (dbg := dbg) fun _ => lex_bind (lex_lit _) fun _ _ _ => lex_bind lex_trivias fun _ _ _ =>
    lex_word.mono fun _ _ _ => trivial

theorem Snd.wide {ts ts' : List Term} (h : Snd st p [[.one ts]]) (hs : (ts.all fun t => ts'.contains t) = true) :
    Snd st p [[.one ts']] := h.le (by simp only [prodsLe, prodLe, Item.le, List.all_cons, List.any_cons, hs]; rfl)

theorem snd_importDesc : Snd true (importDesc dbg) [[.one importTerms]] := by
  unfold importDesc peekParenWord
  refine snd_context (snd_peekBind mono_parenWord fun w => ?_)
  exact snd_ite (snd_importDescTypeUse.wide (by decide +kernel)) (snd_ite (snd_importDescGlobalType.wide (by decide +kernel))
    (snd_ite (snd_importDescMemoryType.wide (by decide +kernel)) (snd_ite (snd_importDescTableType.wide (by decide +kernel))
    snd_fail)))

theorem snd_exportDesc : Snd true (exportDesc dbg) [[.one exportTerms]] := by
  unfold exportDesc peekParenWord exportDescVariant
  refine snd_context (snd_peekBind mono_parenWord fun w => ?_)
  refine snd_ite ?_ (snd_ite ?_ (snd_ite ?_ (snd_ite ?_ snd_fail))) <;> apply Snd.wide <;> snd [snd_index]

theorem snd_memUse : Snd true (memUse dbg) [[.one [.node .MEM_USE]]] := by unfold memUse; snd [snd_index]
theorem snd_tableUse : Snd true (tableUse dbg) [[.one [.node .TABLE_USE]]] := by unfold tableUse; snd [snd_index]
theorem snd_dataP : Snd true (dataP dbg) [[.one [.node .DATA]]] := by unfold dataP; snd []

/-! ### Instructions -/

theorem mono_any : Mono any := mono_lex (dbg := false) (fun _ => lex_any)

variable {ins : G}

theorem snd_operand {b : Bool} (h : Snd true ins [[.one instrTerms]]) (hh : Heads ins) :
    Snd true (operand dbg ins b) [[.one [.node .OPERAND]]] := by
  unfold operand peekParenWord
  refine snd_context (snd_node (snd_peekBind (A := [[.one ([.tok .INT, .tok .FLOAT, .tok .STRING, .tok .IDENT,
    .tok .MEM_ARG, .tok .HEAP_TYPE, .node .TYPE_USE] ++ instrTerms)]]) mono_any fun c => ?_) (by decide +kernel)
    (startOk_of (heads_bind fun c => heads_ite (heads_alt_cons (heads_tok rfl) (heads_alt_one (heads_tok rfl)))
      (heads_ite (heads_tok rfl) (heads_ite (heads_tok rfl) (heads_ite (heads_tok rfl) (heads_ite (heads_bind fun w =>
        heads_ite heads_typeUse (heads_ite hh heads_fail)) (heads_ite (heads_tok rfl) (heads_ite heads_heapType heads_fail)))))))))
  refine snd_ite ?_ (snd_ite (snd_float.wide (by decide +kernel)) (snd_ite (snd_string.wide (by decide +kernel))
    (snd_ite (snd_ident.wide (by decide +kernel)) (snd_ite (snd_peekBind mono_parenWord fun w => ?_)
    (snd_ite (snd_memArg.wide (by decide +kernel)) (snd_ite (snd_heapType.wide (by decide +kernel)) snd_fail))))))
  · exact Snd.le (snd_alt_cons snd_int (snd_alt_one snd_float)) (by decide +kernel)
  · refine snd_ite (snd_typeUse.wide (by decide +kernel)) (snd_ite (h.wide (by decide +kernel)) snd_fail)

theorem snd_plainInstr (h : Snd true ins [[.one instrTerms]]) (hh : Heads ins) : Snd true (plainInstr dbg ins) [[.one [.node .PLAIN_INSTR]]] := by
  have h1 := snd_operand (dbg := dbg) (b := true) h hh
  have h2 := snd_operand (dbg := dbg) (b := false) h hh
  unfold plainInstr; apply Snd.one; snd [h1, h2]

theorem snd_blockType : Snd true (blockType dbg) [[.one [.node .BLOCK_TYPE]]] := by
  unfold blockType; apply Snd.one; snd [snd_result, snd_typeUse]

theorem mono_peek {x : P α} (h : Mono x) : Mono (peek x) := by
  refine .of (fun s a s' hp he => ?_) (fun s e s' hp he => ?_) <;> unfold P.peek at hp <;>
    cases hx : x s <;> simp only [hx] at hp <;> cases hp
  · exact h.ok hx he
  · exact h.fail hx he

theorem mono_peekEnd {ends : List Text} : Mono (peekEnd dbg ends) :=
  mono_peek (mono_lex (fun _ => lex_peekEnd))

theorem snd_repeatTillF {ts : List Term} {g : P β} {φ : β → Prop} (h : Snd st p [[.one ts]]) (hg : Mono g)
    (hφ : ∀ s b s', g s = .ok b s' → s'.errs = [] → φ b) : ∀ fuel s,
    match repeatTillF dbg p g fuel s with
    | .ok l s' => s'.errs = [] → s.errs = [] ∧ Yield [[.many ts]] l.1.flatten ∧ φ l.2
    | .fail _ s' => s'.errs = [] → s.errs = []
    | _ => True := by
  intro fuel
  induction fuel with
  | zero => intro s; simp [repeatTillF]
  | succ fuel ih =>
    intro s
    unfold repeatTillF
    cases hgs : g s <;> simp only
    · exact fun he => ⟨hg.ok hgs he, .stop, hφ _ _ _ hgs he⟩
    · rename_i e0 s0
      have hm : (s0.resetTo s).errs = [] → s.errs = [] := fun he => hg.fail hgs he
      cases hps : p (s0.resetTo s) <;> simp only
      · rename_i a s1
        by_cases hl : s1.rest.length = s.rest.length
        · simp only [hl, if_true, assertFail]
          cases dbg
          · exact fun he => hm (h.ok hps he).1
          · simp
        · simp only [hl, if_false]
          have := ih s1
          unfold P.map P.bind P.pure
          cases hr : repeatTillF dbg p g fuel s1 <;> simp only [hr] at this ⊢
          · intro he
            have k := this he
            have k1 := h.ok hps k.1
            exact ⟨hm k1.1, by rw [List.flatten_cons]; exact k1.2.1.more k.2.1, k.2.2⟩
          · exact fun he => hm (h.ok hps (this he)).1
      · exact fun he => hm (h.fail hps he)

theorem snd_instrsTill {ends : List Text} (h : Snd true ins [[.one instrTerms]]) :
    Snd false (instrsTill dbg ins ends) [[.many instrTerms]] := by
  have key := fun fuel s => snd_repeatTillF (dbg := dbg) (φ := fun _ => True) (snd_retryOnce (dbg := dbg) (al := []) h)
    (mono_peekEnd (dbg := dbg) (ends := ends)) (fun _ _ _ _ _ => trivial) fuel s
  refine .of (fun s a s' hp he => ?_) (fun s e s' hp he => ?_)
  · obtain ⟨l, h1, rfl⟩ := map_ok hp
    have := key (s.rest.length + 1) s
    unfold repeatTill at h1
    simp only [h1] at this
    exact ⟨(this he).1, (this he).2.1, by simp⟩
  · have h1 := map_fail hp
    have := key (s.rest.length + 1) s
    unfold repeatTill at h1
    simp only [h1] at this
    exact this he

theorem snd_blockBlock (h : Snd true ins [[.one instrTerms]]) :
    Snd true (blockLike dbg ins t!"block" .BLOCK_BLOCK) [[.one [.node .BLOCK_BLOCK]]] := by
  have h1 := snd_instrsTill (dbg := dbg) (ends := [t!"end"]) h
  unfold blockLike; apply Snd.one; snd [h, h1, snd_blockType]

theorem snd_blockLoop (h : Snd true ins [[.one instrTerms]]) :
    Snd true (blockLike dbg ins t!"loop" .BLOCK_LOOP) [[.one [.node .BLOCK_LOOP]]] := by
  have h1 := snd_instrsTill (dbg := dbg) (ends := [t!"end"]) h
  unfold blockLike; apply Snd.one; snd [h, h1, snd_blockType]

/-- The `(then` that ends the conditions, with the trivia before it. -/
def thenOpen (dbg : Bool) : P (List Green × List Green) :=
  bind (trivias dbg) fun tr => map (fun lk => (tr, lk)) (seq [lParen, tp dbg (keyword t!"then")])

theorem snd_thenSeq : Snd true (seq [lParen, tp dbg (keyword t!"then")]) [[.one [.tok .L_PAREN], .one [.word t!"then"]]] := by
  apply Snd.le; snd []

/-- Elements of conditions, with trivia after them. -/
def CondsYield (c : List Green) : Prop :=
  ∃ a tr, c = a ++ tr ∧ Yield [[.many instrTerms]] a ∧ signif tr = [] ∧ DerivedL tr ∧ LinesEnd tr

theorem thenOpen_spec : Mono (thenOpen dbg) ∧ ∀ s b s', thenOpen dbg s = .ok b s' → s'.errs = [] →
    (signif b.1 = [] ∧ DerivedL b.1 ∧ LinesEnd b.1) ∧ Yield [[.one [.tok .L_PAREN], .one [.word t!"then"]]] b.2 ∧
      ∃ g r, b.2 = g :: r ∧ isBlank g = false := by
  refine ⟨.of (fun s a s' hp he => ?_) (fun s e s' hp he => ?_), fun s b s' hp he => ?_⟩
  · obtain ⟨tr, s1, h1, h2⟩ := bind_ok hp
    obtain ⟨lk, h3, rfl⟩ := map_ok h2
    exact mono_trivias.ok h1 (snd_thenSeq.ok h3 he).1
  · rcases bind_fail hp with h | ⟨tr, s1, h1, h2⟩
    · exact mono_trivias.fail h he
    · exact mono_trivias.ok h1 (snd_thenSeq.fail (map_fail h2) he)
  · obtain ⟨tr, s1, h1, h2⟩ := bind_ok hp
    obtain ⟨lk, h3, rfl⟩ := map_ok h2
    have k := snd_thenSeq.ok h3 he
    have t := trivias_yield h1
    exact ⟨⟨t.2.1, t.2.2.1, t.2.2.2.1 (k.2.2 rfl).1⟩, k.2.1, heads_seq heads_lParen _ _ _ h3⟩

theorem ifCondsThen_spec (h : Snd true ins [[.one instrTerms]]) : Mono (ifCondsThen dbg ins) ∧
    ∀ s cl s', ifCondsThen dbg ins s = .ok cl s' → s'.errs = [] →
      CondsYield cl.1 ∧ Yield [[.one [.tok .L_PAREN], .one [.word t!"then"]]] cl.2 ∧
        ∃ g r, cl.2 = g :: r ∧ isBlank g = false := by
  have key := fun fuel s => snd_repeatTillF (dbg := dbg) (snd_retry (dbg := dbg) (al := []) h)
    (thenOpen_spec (dbg := dbg)).1 (thenOpen_spec (dbg := dbg)).2 fuel s
  refine ⟨.of (fun s a s' hp he => ?_) (fun s e s' hp he => ?_), fun s b s' hp he => ?_⟩
  · obtain ⟨l, h1, rfl⟩ := map_ok hp
    have := key (s.rest.length + 1) s
    unfold repeatTill at h1
    unfold thenOpen at this
    simp only [h1] at this
    exact (this he).1
  · have h1 := map_fail hp
    have := key (s.rest.length + 1) s
    unfold repeatTill at h1
    unfold thenOpen at this
    simp only [h1] at this
    exact this he
  · obtain ⟨l, h1, rfl⟩ := map_ok hp
    have := key (s.rest.length + 1) s
    unfold repeatTill at h1
    unfold thenOpen at this
    simp only [h1] at this
    obtain ⟨_, k1, ⟨k2, k3, k4⟩, k5⟩ := this he
    exact ⟨⟨_, _, rfl, k1, k2, k3, k4⟩, k5⟩

/-- A bind whose second parser is sound whenever the first result is. -/
theorem snd_bindWith {x : P α} {f : α → G} {φ : α → Prop} (hx : Mono x)
    (hφ : ∀ s a s', x s = .ok a s' → s'.errs = [] → φ a) (hm : ∀ a, Mono (f a))
    (hf : ∀ a, φ a → Snd st (f a) A) : Snd false (bind x f) A := by
  refine .of (fun s a s' hp he => ?_) (fun s e s' hp he => ?_)
  · obtain ⟨y, s1, h1, h2⟩ := bind_ok hp
    have e1 := (hm y).ok h2 he
    exact ⟨hx.ok h1 e1, ((hf y (hφ _ _ _ h1 e1)).ok h2 he).2.1, by simp⟩
  · rcases bind_fail hp with h | ⟨y, s1, h1, h2⟩
    · exact hx.fail h he
    · exact hx.ok h1 ((hm y).fail h2 he)

theorem snd_map {f : List Green → List Green} (h : Snd false p A) (hf : ∀ a, Yield A a → Yield B (f a)) :
    Snd false (map f p) B := by
  refine .of (fun s a s' hp he => ?_) (fun s e s' hp he => ?_)
  · obtain ⟨y, h1, rfl⟩ := map_ok hp
    have k := h.ok h1 he
    exact ⟨k.1, hf _ k.2.1, by simp⟩
  · exact h.fail (map_fail hp) he

theorem mono_seq_cons {ps : List G} (h1 : Mono p) (h2 : Mono (seq ps)) : Mono (seq (p :: ps)) := by
  refine .of (fun s a s' h he => ?_) (fun s e s' h he => ?_)
  · obtain ⟨b, s1, c, hb, hc, rfl⟩ := seq_cons_ok h
    exact h1.ok hb (h2.ok hc he)
  · rcases seq_cons_fail h with h | ⟨b, s1, hb, hc⟩
    · exact h1.fail h he
    · exact h1.ok hb (h2.fail hc he)

theorem mono_map {x : P α} {f : α → β} (h : Mono x) : Mono (map f x) :=
  .of (fun s a s' hp he => by obtain ⟨y, h1, rfl⟩ := map_ok hp; exact h.ok h1 he) fun s e s' hp he => h.fail (map_fail hp) he

theorem snd_blockIf (h : Snd true ins [[.one instrTerms]]) : Snd true (blockIf dbg ins) [[.one [.node .BLOCK_IF]]] := by
  have h1 := snd_instrsTill (dbg := dbg) (ends := [t!"end"]) h
  have h2 := snd_instrsTill (dbg := dbg) (ends := [t!"end", t!"else"]) h
  have hbody : Snd false (seq [many dbg (retry dbg ins []), rParen dbg]) [[.many instrTerms, .one [.tok .R_PAREN]]] := by
    apply Snd.le; snd [h]
  have helse : Snd false (optG (seq [trivias dbg, nodeP .BLOCK_IF_ELSE (seq [lParen, tp dbg (keyword t!"else"),
            many dbg (retry dbg ins []), rParen dbg])])) [[.opt [.node .BLOCK_IF_ELSE]]] := by snd [h]
  have hthen : ∀ cl : List Green × List Green, CondsYield cl.1 →
      Yield [[.one [.tok .L_PAREN], .one [.word t!"then"]]] cl.2 → (∃ g r, cl.2 = g :: r ∧ isBlank g = false) →
      Snd false (map (fun rest => cl.1 ++ [Green.node .BLOCK_IF_THEN (cl.2 ++ rest)])
              (seq [many dbg (retry dbg ins []), rParen dbg])) [[.many instrTerms, .one [.node .BLOCK_IF_THEN]]] := by
    intro cl ⟨a, tr, ha, y1, t1, t2, t3⟩ y2 ⟨g0, r0, hg0, hb0⟩
    refine snd_map hbody fun rest y3 => ?_
    have y4 := y2.append y3
    have y5 : Yield [[.one [.node .BLOCK_IF_THEN]]] [Green.node .BLOCK_IF_THEN (cl.2 ++ rest)] := by
      refine ⟨⟨_, List.mem_singleton.mpr rfl, ?_⟩, ⟨⟨y4.prod.le (by decide +kernel), ⟨y4.lines, y4.tail, .inl fun g r he => by
        rw [hg0] at he; cases he; exact hb0⟩, y4.good⟩, trivial⟩,
        by simp [LinesEnd], endsSolid_one rfl⟩
      simp only [signif, isBlank, List.filter_cons, Bool.not_false, if_true, List.filter_nil]
      exact .one (List.mem_singleton.mpr rfl) (by simp [Term.is]) .nil
    rw [ha, List.append_assoc]
    exact (y1.append (y5.pre t1 t2 t3 (by simp))).le (by decide +kernel)
  have hcond : Snd false (bind (ifCondsThen dbg ins) fun cl =>
        seq [map (fun rest => cl.1 ++ [Green.node .BLOCK_IF_THEN (cl.2 ++ rest)])
              (seq [many dbg (retry dbg ins []), rParen dbg]),
          optG (seq [trivias dbg, nodeP .BLOCK_IF_ELSE (seq [lParen, tp dbg (keyword t!"else"),
            many dbg (retry dbg ins []), rParen dbg])]),
          rParen dbg])
      [[.many instrTerms, .one [.node .BLOCK_IF_THEN], .opt [.node .BLOCK_IF_ELSE], .one [.tok .R_PAREN]]] := by
    refine snd_bindWith (st := false) (ifCondsThen_spec h).1 (ifCondsThen_spec h).2 (fun cl => ?_) (fun cl hcl => ?_)
    · exact mono_seq_cons (mono_map hbody.mono) (mono_seq_cons helse.mono (mono_seq_cons snd_rParen.mono snd_seq_nil.mono))
    · exact Snd.le (snd_seq_cons (hthen cl hcl.1 hcl.2.1 hcl.2.2) (snd_seq_cons helse (snd_seq_cons snd_rParen snd_seq_nil)))
        (by decide +kernel)
  unfold blockIf; apply Snd.one; snd [h, h1, h2, hcond, snd_blockType]

theorem mono_optParenWord : Mono (bind (opt (bind (lit ['(']) fun _ => trivias dbg)) fun _ => word) :=
  mono_lex (Q := fun _ _ => True) (dbg := dbg) fun _ => (lex_bind (Q := fun _ _ => True)
    (lex_opt (lex_bind (Q' := fun _ _ => True) (lex_lit _) fun _ _ _ => lex_trivias.mono fun _ _ _ => trivial)
      (fun _ _ _ => trivial) trivial) fun _ _ _ => lex_word.mono fun _ _ _ => trivial)

theorem snd_blockInstr (h : Snd true ins [[.one instrTerms]]) : Snd true (blockInstr dbg ins) [[.one instrTerms]] := by
  unfold blockInstr
  refine snd_peekBind mono_optParenWord fun w => ?_
  exact snd_ite ((snd_blockIf h).wide (by decide +kernel)) (snd_ite ((snd_blockLoop h).wide (by decide +kernel))
    (snd_ite ((snd_blockBlock h).wide (by decide +kernel)) snd_fail))

theorem snd_instrF : ∀ fuel, Snd true (instrF dbg fuel) [[.one instrTerms]]
  | 0 => .of (fun s a s' hp => by cases hp) (fun s e s' hp => by cases hp)
  | fuel + 1 => by
    unfold instrF
    exact Snd.le (snd_alt_cons (snd_blockInstr (snd_instrF fuel)) (snd_alt_one (snd_plainInstr (snd_instrF fuel) (heads_instrF fuel))))
      (by decide +kernel)

theorem snd_instr : Snd true (instr dbg) [[.one instrTerms]] := fun s => snd_instrF (s.rest.length + 1) s

/-! ### Module fields -/

theorem snd_elemExpr : Snd true (elemExpr dbg) [[.one [.node .ELEM_EXPR]]] := by
  have h : Snd true (bind (peek (lit ['('])) fun _ => instr dbg) [[.one instrTerms]] :=
    snd_peekBind lit_mono fun _ => snd_instr
  unfold elemExpr; apply Snd.one; snd [snd_instr, h]

theorem snd_elemList : Snd true (elemList dbg) [[.one [.node .ELEM_LIST]]] := by
  have h : Snd true (alt [keyword t!"func", index]) [[.one [.word t!"func"]], [.one [.node .INDEX]]] :=
    snd_alt_cons (snd_keyword (by decide +kernel)) (snd_alt_one snd_index)
  unfold elemList; apply Snd.one; snd [h, snd_index, snd_elemExpr]

theorem mono_trivAny : Mono (bind (trivias dbg) fun _ => any) := mono_lex (fun _ => lex_trivAny)

theorem snd_elem : Snd true (elem dbg) [[.one [.node .ELEM]]] := by
  have h : Snd false (bind (peek (bind (trivias dbg) fun _ => any)) fun c =>
      if c == '(' then many dbg (retryOnce dbg (elemExpr dbg) [])
      else if c == ')' then pure []
      else many dbg (retryOnce dbg index [])) [[.many [.node .ELEM_EXPR]], [.many [.node .INDEX]]] := by
    refine snd_peekBind mono_trivAny fun c => ?_
    refine snd_ite (Snd.le (snd_many (snd_retryOnce snd_elemExpr)) (by decide +kernel)) (snd_ite ?_
      (Snd.le (snd_many (snd_retryOnce snd_index)) (by decide +kernel)))
    exact .of (fun s a s' h he => by
      cases h; exact ⟨he, ⟨⟨_, List.mem_cons_self, .stop .nil⟩, trivial, trivial, endsSolid_nil⟩, by simp⟩) fun s e s' h => by cases h
  unfold elem; snd [h]

theorem snd_offset : Snd true (offset dbg) [[.one [.node .OFFSET]]] := by
  have h : Snd true (bind (peek (lit ['('])) fun _ => instr dbg) [[.one instrTerms]] :=
    snd_peekBind lit_mono fun _ => snd_instr
  unfold offset; apply Snd.one; snd [snd_instr, h]

theorem snd_moduleFieldData : Snd true (moduleFieldData dbg) [[.one [.node .MODULE_FIELD_DATA]]] := by
  unfold moduleFieldData; snd [snd_memUse, snd_offset]

theorem snd_moduleFieldElem : Snd true (moduleFieldElem dbg) [[.one [.node .MODULE_FIELD_ELEM]]] := by
  unfold moduleFieldElem; snd [snd_elemList, snd_tableUse, snd_offset]

theorem snd_moduleFieldExport : Snd true (moduleFieldExport dbg) [[.one [.node .MODULE_FIELD_EXPORT]]] := by
  unfold moduleFieldExport; snd [snd_nameP, snd_exportDesc]

theorem snd_moduleFieldFunc : Snd true (moduleFieldFunc dbg) [[.one [.node .MODULE_FIELD_FUNC]]] := by
  have h : Snd true (alt [importP dbg, exportP dbg]) [[.one [.node .IMPORT, .node .EXPORT]]] :=
    Snd.le (snd_alt_cons snd_importP (snd_alt_one snd_exportP)) (by decide +kernel)
  have h' : Snd false (many dbg (tp dbg (alt [importP dbg, exportP dbg]))) [[.many [.node .IMPORT, .node .EXPORT]]] :=
    snd_many (snd_tp h)
  unfold moduleFieldFunc; snd [h', snd_typeUse, snd_localP, snd_instr]

theorem snd_moduleFieldGlobal : Snd true (moduleFieldGlobal dbg) [[.one [.node .MODULE_FIELD_GLOBAL]]] := by
  unfold moduleFieldGlobal; snd [snd_importP, snd_exportP, snd_globalType, snd_instr]

theorem snd_moduleFieldImport : Snd true (moduleFieldImport dbg) [[.one [.node .MODULE_FIELD_IMPORT]]] := by
  unfold moduleFieldImport; snd [snd_moduleName, snd_nameP, snd_importDesc]

theorem snd_moduleFieldMemory : Snd true (moduleFieldMemory dbg) [[.one [.node .MODULE_FIELD_MEMORY]]] := by
  have h : Snd true (bind (peek (bind (trivias dbg) fun _ => any)) fun c =>
      if c == '(' then must (retryOnce dbg (dataP dbg) [])
      else must (retryOnce dbg (memoryType dbg) [])) [[.one [.node .DATA, .node .MEMORY_TYPE]]] := by
    refine snd_peekBind mono_trivAny fun c => ?_
    exact snd_ite (Snd.le (snd_must (snd_retryOnce snd_dataP)) (by decide +kernel))
      (Snd.le (snd_must (snd_retryOnce snd_memoryType)) (by decide +kernel))
  unfold moduleFieldMemory; snd [snd_importP, snd_exportP, h]

theorem snd_moduleFieldStart : Snd true (moduleFieldStart dbg) [[.one [.node .MODULE_FIELD_START]]] := by
  unfold moduleFieldStart; snd [snd_index]

theorem snd_moduleFieldTable : Snd true (moduleFieldTable dbg) [[.one [.node .MODULE_FIELD_TABLE]]] := by
  unfold moduleFieldTable; snd [snd_importP, snd_exportP, snd_elem, snd_tableType]

theorem snd_moduleFieldType : Snd true (moduleFieldType dbg) [[.one [.node .MODULE_FIELD_TYPE]]] := by
  unfold moduleFieldType; snd [snd_funcType]

theorem snd_moduleField : Snd true (moduleField dbg) [[.one fieldTerms]] := by
  unfold moduleField peekParenWord
  refine snd_context (snd_peekBind mono_parenWord fun w => ?_)
  exact snd_ite (snd_moduleFieldFunc.wide (by decide +kernel)) (snd_ite (snd_moduleFieldType.wide (by decide +kernel))
    (snd_ite (snd_moduleFieldExport.wide (by decide +kernel)) (snd_ite (snd_moduleFieldImport.wide (by decide +kernel))
    (snd_ite (snd_moduleFieldStart.wide (by decide +kernel)) (snd_ite (snd_moduleFieldData.wide (by decide +kernel))
    (snd_ite (snd_moduleFieldTable.wide (by decide +kernel)) (snd_ite (snd_moduleFieldMemory.wide (by decide +kernel))
    (snd_ite (snd_moduleFieldGlobal.wide (by decide +kernel)) (snd_ite (snd_moduleFieldElem.wide (by decide +kernel))
    snd_fail)))))))))

theorem snd_moduleP : Snd true (moduleP dbg) [[.one [.node .MODULE]]] := by
  unfold moduleP; snd [snd_moduleField]

/-- One round of the loop that reads what is left after the modules. -/
theorem rootTail_one {s s1 : St} {a : List Green} (h : rootTail dbg s = .ok a s1) :
    (∃ t, a = [.tok .WHITESPACE t] ∧ (NewLine s.rest → NewLine t)) ∨
    (∃ t, a = [.tok .LINE_COMMENT t] ∧ ¬ NewLine s.rest ∧ (s1.rest = [] ∨ NewLine s1.rest)) ∨
    (∃ t, a = [.tok .BLOCK_COMMENT t] ∧ ¬ NewLine s.rest) ∨
    (∃ t, a = [.tok .ERROR t] ∧ ¬ NewLine s.rest) := by
  have key : alt [ws, lineComment, blockComment dbg] s = .ok a s1 ∨
      (∃ e s2, alt [ws, lineComment, blockComment dbg] s = .fail e s2) ∧ ∃ s3, errorToken true s3 = .ok a s1 := by
    change alt2 ws (alt2 lineComment (alt2 (blockComment dbg) (errorToken true))) s = _ at h
    change alt2 ws (alt2 lineComment (blockComment dbg)) s = _ ∨
      (∃ e s2, alt2 ws (alt2 lineComment (blockComment dbg)) s = _) ∧ _
    unfold P.alt2 at h ⊢
    cases hw : ws s <;> simp only [hw] at h ⊢
    · exact .inl h
    · rename_i e2 s2
      cases hl : lineComment (s2.resetTo s) <;> simp only [hl] at h ⊢
      · exact .inl h
      · rename_i e3 s3
        cases hb : blockComment dbg (s3.resetTo (s2.resetTo s)) <;> simp only [hb] at h ⊢
        · exact .inl h
        · exact .inr ⟨⟨_, _, rfl⟩, _, h⟩
        · cases h
        · cases h
      · cases h
      · cases h
    · cases h
    · cases h
  rcases key with h | ⟨⟨e, s2, h4⟩, s3, h3⟩
  · rcases trivia_one h with h | h | h
    · exact .inl h
    · exact .inr (.inl h)
    · exact .inr (.inr (.inl h))
  · have := lex_errorToken (dbg := dbg) true s3 (Nat.le_refl _)
    simp only [h3, LexOut] at this
    obtain ⟨c, _, _, rfl, _⟩ := this
    exact .inr (.inr (.inr ⟨c, rfl, trivia_alt_fail h4⟩))

/-- White space, a comment or an error. -/
def IsRest (g : Green) : Prop := isBlank g = true ∨ ∃ t, g = .tok .ERROR t

/-- What is left after the modules, were the document to end with a new line. -/
theorem rootTail_lines : ∀ fuel (s : St) (l : List (List Green)) (s' : St),
    repeatF dbg (rootTail dbg) fuel s = .ok l s' → s'.rest = [] →
    LinesEnd (l.flatten ++ [.tok .WHITESPACE ['\n']]) ∧ (∀ g ∈ l.flatten, IsRest g) ∧
    (NewLine s.rest → ∃ t r, l.flatten = .tok .WHITESPACE t :: r ∧ NewLine t) := by
  intro fuel
  induction fuel with
  | zero => intro s l s' h; cases h
  | succ fuel ih =>
    intro s l s' h hne
    unfold repeatF at h
    cases hp : rootTail dbg s <;> simp only [hp] at h
    · rename_i a s1
      split at h
      · unfold assertFail at h; split at h <;> cases h
      · obtain ⟨as, h1, rfl⟩ := map_ok h
        obtain ⟨i1, i2, i3⟩ := ih _ _ _ h1 hne
        rw [List.flatten_cons]
        have mem : ∀ g : Green, IsRest g → ∀ x ∈ [g] ++ as.flatten, IsRest x := by
          intro g hg x hx
          rcases List.mem_cons.mp hx with rfl | hx
          · exact hg
          · exact i2 x hx
        rcases rootTail_one hp with ⟨t, rfl, ht⟩ | ⟨t, rfl, hn, hr⟩ | ⟨t, rfl, hn⟩ | ⟨t, rfl, hn⟩
        · exact ⟨by simpa [LinesEnd] using i1, mem _ (.inl rfl), fun hn => ⟨t, as.flatten, rfl, ht hn⟩⟩
        · refine ⟨⟨?_, i1⟩, mem _ (.inl rfl), fun h => absurd h hn⟩
          rcases hr with hr | hr
          · have : as = [] := by
              cases fuel with
              | zero => cases h1
              | succ fuel =>
                unfold repeatF at h1
                have := lex_rootTail (dbg := dbg) s1 (Nat.le_refl _)
                cases hp1 : rootTail dbg s1 <;> simp only [hp1, LexOut] at h1 this
                · exfalso
                  obtain ⟨c, ha, _, hc⟩ := this
                  have := ha.rest
                  rw [hr] at this
                  exact hc (List.append_eq_nil_iff.mp this.symm).1
                · cases h1; rfl
                · cases h1
            subst this
            exact ⟨_, _, rfl, .inl ⟨[], rfl⟩⟩
          · obtain ⟨t, r, h1, h2⟩ := i3 hr
            exact ⟨t, r ++ [.tok .WHITESPACE ['\n']], by simp [h1], h2⟩
        · exact ⟨by simpa [LinesEnd] using i1, mem _ (.inl rfl), fun h => absurd h hn⟩
        · exact ⟨by simpa [LinesEnd] using i1, mem _ (.inr ⟨t, rfl⟩), fun h => absurd h hn⟩
    · cases h
      refine ⟨by simp [LinesEnd], by simp, fun hn => ?_⟩
      simp only [St.resetTo] at hne
      rw [hne] at hn
      rcases hn with ⟨r, hr⟩ | ⟨r, hr⟩ <;> cases hr
    · cases h
    · cases h

/-- The root of a parse without errors: modules, then white space, comments and error tokens. -/
theorem parse_derived {dbg : Bool} {src : Text} {g : Green} {d : Text} (h : parse dbg src = .tree g [] d) :
    d = [] ∧ ∃ a b, g = .node .ROOT (a ++ b) ∧ Yield [[.many [.node .MODULE]]] a ∧
      LinesEnd (b ++ [.tok .WHITESPACE ['\n']]) ∧ ∀ g ∈ b, IsRest g := by
  have hm : Snd false (many dbg (retryOnce dbg (moduleP dbg) [])) [[.many [.node .MODULE]]] := by snd [snd_moduleP]
  unfold parse at h
  cases hr : rootChildren dbg (St.init src) <;> simp only [hr] at h <;> try cases h
  rename_i cs s2
  obtain ⟨a, s1, c, h1, h2, rfl⟩ := seq_cons_ok hr
  rw [seq_one] at h2
  have hl := lex_many (lex_rootTail (dbg := dbg) (n := s1.rest.length)) s1 (Nat.le_refl _)
  simp only [h2, LexOut] at hl
  obtain ⟨t, ha, ht⟩ := hl
  split at h
  · rename_i hd
    simp only [ParseOut.tree.injEq] at h
    obtain ⟨rfl, he, rfl⟩ := h
    have k := hm.ok h1 (by rw [← ha.errs]; exact he)
    obtain ⟨l, h3, rfl⟩ := map_ok h2
    have k2 := rootTail_lines _ _ _ _ h3 (by simpa using hd)
    exact ⟨rfl, a, _, rfl, k.2.1, k2.1, k2.2.1⟩
  · have := congrArg (fun o => match o with | ParseOut.tree _ e _ => e | _ => []) h
    exact absurd this (by simp [St.record])

theorem match_many_is {ts : List Term} {l : List Green} (h : Match [.many ts] l) : ∀ g ∈ l, ∃ t ∈ ts, t.is g := by
  generalize hp : [Item.many ts] = p at h
  induction h with
  | nil => cases hp
  | one _ _ _ _ => cases hp
  | skip _ _ => cases hp
  | opt _ _ _ _ => cases hp
  | stop h _ => cases hp; cases h; simp
  | more h1 h2 _ ih =>
    intro g hg
    rcases List.mem_cons.mp hg with rfl | hg
    · cases hp; exact ⟨_, h1, h2⟩
    · exact ih hp g hg

end Verif
