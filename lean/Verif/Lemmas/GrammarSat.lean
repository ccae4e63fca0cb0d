import Lean
import Verif.Lemmas.Inv
import Verif.Lemmas.NumLex
/-!
Helper lemmas: every parser of the grammar maintains every generic invariant.
-/
namespace Verif
open P Spec

variable {I : PInv} {dbg : Bool} {n : Nat} {st : Bool}

theorem lex_peekParenWord : Lex dbg n (fun _ _ => True)
    (bind (lit ['(']) fun _ => bind (trivias dbg) fun _ => word) :=
  lex_bind (lex_lit _) fun _ _ _ => lex_bind lex_trivias fun _ _ _ => lex_word.mono fun _ _ _ => trivial

/-- Membership of a literal keyword. -/
macro "kwmem" : tactic => `(tactic| first
  | assumption
  | simp only [keywords, List.mem_cons, true_or, or_true])

/-- A word turned into one token of the specified shape. -/
theorem lexTok_wordMap {f : Text → Option (List Green)}
    (hf : ∀ w b, f w = some b → ∃ k, b = [.tok k w] ∧ TokenShape k w ∧ k ≠ .ERROR) :
    LexTok dbg n (verifyMap f word) :=
  lex_verifyMap lex_word fun a c b h1 h2 => by
    obtain ⟨rfl, hw⟩ := h1
    obtain ⟨k, rfl, hs, hk⟩ := hf _ _ h2
    exact ⟨Toks.one hs hk, IsWord.ne_nil hw⟩

theorem lexTok_refType : LexTok dbg n refType :=
  lex_context _ (lexTok_wordMap fun w b h => by
    split at h
    · rename_i hw
      cases h
      simp only [Bool.or_eq_true, beq_iff_eq] at hw
      exact ⟨_, rfl, by rcases hw with rfl | rfl <;> simp [TokenShape], by simp⟩
    · cases h)

theorem lexTok_heapType : LexTok dbg n heapType :=
  lexTok_wordMap fun w b h => by
    split at h
    · rename_i hw
      cases h
      simp only [Bool.or_eq_true, beq_iff_eq] at hw
      exact ⟨_, rfl, by rcases hw with rfl | rfl <;> simp [TokenShape], by simp⟩
    · cases h

theorem lexTok_share : LexTok dbg n share :=
  lexTok_of (Q := fun a c => a = c ∧ TokenShape .SHARE c ∧ c ≠ [])
    (lex_verify lex_word fun a c h1 h2 => by
      obtain ⟨rfl, hw⟩ := h1
      simp only [Bool.or_eq_true, beq_iff_eq] at h2
      exact ⟨rfl, by rcases h2 with rfl | rfl <;> simp [TokenShape], IsWord.ne_nil hw⟩)
    (fun _ _ h => h) (by simp)

theorem lexTok_instrName : LexTok dbg n instrName :=
  lexTok_of (lex_context _ lex_word) (fun _ _ h => ⟨h.1, h.2, IsWord.ne_nil h.2⟩) (by simp)

theorem lexTok_memArg : LexTok dbg n memArg :=
  lexTok_of (Q := fun a c => a = c ∧ TokenShape .MEM_ARG c ∧ c ≠ [])
    (lex_take (Q := fun _ c => TokenShape .MEM_ARG c ∧ c ≠ [])
      (lex_bind (Q := fun _ c => c = t!"offset" ∨ c = t!"align")
        (lex_alt2 ((lex_lit _).mono fun _ _ h => .inl h.2) ((lex_lit _).mono fun _ _ h => .inr h.2))
        fun _ c h => lex_bind (lex_lit _) fun _ d hd => lex_unsignedIntImpl.mono fun _ e he => by
          obtain ⟨_, rfl⟩ := hd
          refine ⟨⟨e, ?_, he.2.1⟩, by simp⟩
          rcases h with rfl | rfl
          · exact .inl rfl
          · exact .inr rfl)
      fun _ _ h => ⟨rfl, h⟩)
    (fun _ _ h => h) (by simp)

theorem valTypeTok_shape {w : Text} {g : Green} (h : valTypeTok w = some g) :
    ∃ k, g = .tok k w ∧ TokenShape k w ∧ (k = .NUM_TYPE ∨ k = .VEC_TYPE ∨ k = .REF_TYPE) := by
  unfold valTypeTok at h
  split at h
  · rename_i hw
    cases h
    simp only [Bool.or_eq_true, beq_iff_eq] at hw
    exact ⟨_, rfl, by rcases hw with ((rfl | rfl) | rfl) | rfl <;> simp [TokenShape], by simp⟩
  · split at h
    · rename_i hw
      cases h
      simp only [beq_iff_eq] at hw
      exact ⟨_, rfl, by simp [TokenShape, hw], by simp⟩
    · split at h
      · rename_i hw
        cases h
        simp only [Bool.or_eq_true, beq_iff_eq] at hw
        exact ⟨_, rfl, by rcases hw with rfl | rfl <;> simp [TokenShape], by simp⟩
      · cases h

theorem sat_valType : Sat I dbg st n valType := by
  intro s hs hc
  have h : Lex dbg n (fun g c => ∃ k, g = .tok k c ∧ TokenShape k c ∧
      (k = .NUM_TYPE ∨ k = .VEC_TYPE ∨ k = .REF_TYPE) ∧ c ≠ [])
      (context (.expDesc "value type") (verifyMap valTypeTok word)) :=
    lex_context _ (lex_verifyMap lex_word fun a c b h1 h2 => by
      obtain ⟨rfl, hw⟩ := h1
      obtain ⟨k, rfl, hs, hk⟩ := valTypeTok_shape h2
      exact ⟨k, rfl, hs, hk, IsWord.ne_nil hw⟩)
  have h := h s hs
  unfold valType P.map P.bind P.pure
  cases hp : context (.expDesc "value type") (verifyMap valTypeTok word) s <;>
    simp only [hp, LexOut, SatOut] at h ⊢
  · obtain ⟨c, ha, k, rfl, hs', hk, hne⟩ := h
    refine ⟨I.R_val hs' hk ha, ha.suf, fun _ => ?_⟩
    have := ha.length
    have := List.length_pos_iff.mpr hne
    omega
  · obtain ⟨c, ha, he⟩ := h
    exact ⟨I.F_lex ha he, ha.suf⟩
  · exact h

theorem sat_seq_cons0 {p : G} {ps : List G} (hp : Sat I dbg false n p) (hps : Sat I dbg false n (seq ps)) :
    Sat I dbg false n (seq (p :: ps)) := sat_seq_cons hp hps

theorem sat_trivSeq {p : G} (hp : Sat I dbg st n p) : Sat I dbg st n (seq [trivias dbg, p]) := sat_tp hp

open Lean Elab Tactic in
/-- One step of `psat`: dispatches on the head symbol of the parser. -/
elab "psat1" : tactic => withMainContext do
  let t := (← instantiateMVars (← (← getMainGoal).getType)).consumeMData
  unless t.isAppOf ``Sat do throwError "not a Sat goal"
  let p := t.appArg!
  match p.getAppFn with
  | .const n _ =>
    match n with
    | ``lParen => evalTactic (← `(tactic| with_reducible (exact sat_lexTok lexTok_lParen)))
    | ``ident => evalTactic (← `(tactic| with_reducible (exact sat_lexTok lexTok_ident)))
    | ``string => evalTactic (← `(tactic| with_reducible (exact sat_lexTok lexTok_string)))
    | ``unsignedInt => evalTactic (← `(tactic| with_reducible (exact sat_lexTok lexTok_unsignedInt)))
    | ``int => evalTactic (← `(tactic| with_reducible (exact sat_lexTok lexTok_int)))
    | ``refType => evalTactic (← `(tactic| with_reducible (exact sat_lexTok lexTok_refType)))
    | ``heapType => evalTactic (← `(tactic| with_reducible (exact sat_lexTok lexTok_heapType)))
    | ``share => evalTactic (← `(tactic| with_reducible (exact sat_lexTok lexTok_share)))
    | ``instrName => evalTactic (← `(tactic| with_reducible (exact sat_lexTok lexTok_instrName)))
    | ``memArg => evalTactic (← `(tactic| with_reducible (exact sat_lexTok lexTok_memArg)))
    | ``keyword => evalTactic (← `(tactic| with_reducible (exact sat_lexTok (lexTok_keyword (by kwmem)))))
    | ``valType => evalTactic (← `(tactic| with_reducible (exact sat_valType)))
    | ``rParen => evalTactic (← `(tactic| with_reducible (exact sat_rParen)))
    | ``trivias => evalTactic (← `(tactic| with_reducible (exact sat_trivias)))
    | ``P.pure => evalTactic (← `(tactic| with_reducible (exact sat_nil)))
    | ``P.fail => evalTactic (← `(tactic| with_reducible (exact sat_fail)))
    | ``nodeP => evalTactic (← `(tactic| with_reducible (refine sat_node ?_)))
    | ``P.context => evalTactic (← `(tactic| with_reducible (refine sat_context ?_)))
    | ``tp => evalTactic (← `(tactic| with_reducible (refine sat_tp ?_)))
    | ``retryOnce => evalTactic (← `(tactic| with_reducible (refine sat_retryOnce ?_)))
    | ``retry => evalTactic (← `(tactic| with_reducible (refine sat_retry ?_)))
    | ``optG => evalTactic (← `(tactic| with_reducible (refine sat_optG (st := true) ?_)))
    | ``must => evalTactic (← `(tactic| with_reducible (refine sat_must (st := true) ?_)))
    | ``many => evalTactic (← `(tactic| with_reducible (refine sat_many ?_)))
    | ``many1 => evalTactic (← `(tactic| with_reducible (refine sat_many1 ?_)))
    | ``P.alt => evalTactic (← `(tactic| with_reducible (first | refine sat_alt_two ?_ ?_ | refine sat_alt_three ?_ ?_ ?_)))
    | ``seq => evalTactic (← `(tactic| with_reducible (first | exact sat_seq_nil | refine sat_trivSeq ?_ | refine sat_seq_cons0 ?_ ?_ | refine sat_seq_consC ?_ (fun m hm => ?_))))
    | ``ite => evalTactic (← `(tactic| with_reducible (refine sat_ite ?_ ?_)))
    | _ => evalTactic (← `(tactic| with_reducible assumption))
  | _ => evalTactic (← `(tactic| with_reducible assumption))

/-- Discharges `Sat` goals for parsers built from the combinators. -/
macro "psat" : tactic => `(tactic| repeat' psat1)

theorem sat_param : Sat I dbg st n (param dbg) := by unfold param; psat
theorem sat_result : Sat I dbg st n (result dbg) := by unfold result; psat

theorem sat_funcType : Sat I dbg st n (funcType dbg) := by
  unfold funcType; psat <;> first | with_reducible exact sat_param | with_reducible exact sat_result

theorem sat_limits : Sat I dbg st n (limits dbg) := by unfold limits; psat
theorem sat_tableType : Sat I dbg st n (tableType dbg) := by
  unfold tableType; psat; with_reducible exact sat_limits
theorem sat_memoryType : Sat I dbg st n (memoryType dbg) := by
  unfold memoryType; psat; with_reducible exact sat_limits
theorem sat_globalType : Sat I dbg st n (globalType dbg) := by unfold globalType; psat
theorem sat_index : Sat I dbg st n index := by unfold index; psat
theorem sat_typeUse : Sat I dbg st n (typeUse dbg) := by
  unfold typeUse; psat <;> first | with_reducible exact sat_param | with_reducible exact sat_result | with_reducible exact sat_index
theorem sat_localP : Sat I dbg st n (localP dbg) := by unfold localP; psat
theorem sat_moduleName : Sat I dbg st n moduleName := by unfold moduleName; psat
theorem sat_nameP : Sat I dbg st n nameP := by unfold nameP; psat
theorem sat_importP : Sat I dbg st n (importP dbg) := by
  unfold importP; psat <;> first | with_reducible exact sat_moduleName | with_reducible exact sat_nameP
theorem sat_exportP : Sat I dbg st n (exportP dbg) := by
  unfold exportP; psat <;> with_reducible exact sat_nameP
theorem sat_importDescGlobalType : Sat I dbg st n (importDescGlobalType dbg) := by
  unfold importDescGlobalType; psat; with_reducible exact sat_globalType
theorem sat_importDescMemoryType : Sat I dbg st n (importDescMemoryType dbg) := by
  unfold importDescMemoryType; psat; with_reducible exact sat_memoryType
theorem sat_importDescTableType : Sat I dbg st n (importDescTableType dbg) := by
  unfold importDescTableType; psat; with_reducible exact sat_tableType
theorem sat_importDescTypeUse : Sat I dbg st n (importDescTypeUse dbg) := by
  unfold importDescTypeUse; psat; with_reducible exact sat_typeUse
theorem sat_importDesc : Sat I dbg st n (importDesc dbg) := by
  unfold importDesc
  refine sat_context (sat_peekBind lex_peekParenWord fun w => ?_)
  with_reducible exact sat_ite sat_importDescTypeUse (sat_ite sat_importDescGlobalType
    (sat_ite sat_importDescMemoryType (sat_ite sat_importDescTableType sat_fail)))
theorem sat_exportDescVariant {kw : Text} {k : Kind} (hk : kw ∈ keywords)
    (hv : k ≠ .VAL_TYPE) : Sat I dbg st n (exportDescVariant dbg kw k) := by
  unfold exportDescVariant
  refine sat_node ?_ hv
  psat
  with_reducible exact sat_index
theorem sat_exportDesc : Sat I dbg st n (exportDesc dbg) := by
  unfold exportDesc
  refine sat_context (sat_peekBind lex_peekParenWord fun w => ?_)
  refine sat_ite ?_ (sat_ite ?_ (sat_ite ?_ (sat_ite ?_ sat_fail))) <;>
    exact sat_exportDescVariant (by kwmem) (by simp)
theorem sat_memUse : Sat I dbg st n (memUse dbg) := by unfold memUse; psat; with_reducible exact sat_index
theorem sat_tableUse : Sat I dbg st n (tableUse dbg) := by unfold tableUse; psat; with_reducible exact sat_index
theorem sat_dataP : Sat I dbg st n (dataP dbg) := by unfold dataP; psat

/-! ### Instructions -/

theorem sat_operand {ins : G} {b : Bool} (h : Sat I dbg true n ins) :
    Sat I dbg st n (operand dbg ins b) := by
  unfold operand
  refine sat_context (sat_node ?_)
  intro s hs hc
  cases hr : s.rest with
  | nil =>
    have : peek any s = .fail .new s := by
      obtain ⟨r, p, e⟩ := s; cases hr; rfl
    rw [P.bind, this]
    exact ⟨I.F_lex (Adv.nil s) (ErrIn.new s), Suf.refl s⟩
  | cons c cs =>
    have : peek any s = .ok c s := by
      obtain ⟨r, p, e⟩ := s; cases hr; rfl
    rw [P.bind, this]
    dsimp only
    split
    · exact sat_lexTok lexTok_number s hs hc
    · split
      · rename_i h2
        have := sat_lexTok (I := I) (st := st) (dbg := dbg) lexTok_word_float s hs hc
        rw [hr] at this
        dsimp only at this
        rw [if_pos h2] at this
        exact this
      · have hp : Sat I dbg st n (bind (peekParenWord dbg) fun w =>
            if w == t!"type" then typeUse dbg else if b then ins else P.fail) :=
          sat_peekBind lex_peekParenWord fun w => sat_ite sat_typeUse (sat_ite h.weak sat_fail)
        refine (?_ : Sat I dbg st n _) s hs hc
        psat

theorem sat_plainInstr {ins : G} (h : ∀ m < n, Sat I dbg true m ins) :
    Sat I dbg st n (plainInstr dbg ins) := by
  unfold plainInstr
  psat <;> exact sat_operand (h _ (by omega))

theorem sat_blockType : Sat I dbg st n (blockType dbg) := by
  unfold blockType; psat <;> first | with_reducible exact sat_result | with_reducible exact sat_typeUse

theorem lex_peekEnd {ends : List Text} : Lex dbg n (fun _ _ => True)
    (void (bind (trivias dbg) fun _ =>
      alt [verify (fun w => ends.any fun e => w == e) word, lit [')']])) :=
  lex_void (Q := fun _ _ => True) (lex_bind lex_trivias fun _ _ _ =>
    lex_alt2 (lex_verify lex_word fun _ _ _ _ => trivial) ((lex_lit _).mono fun _ _ _ => trivial))
    fun _ _ _ => trivial

theorem sat_instrsTill {ins : G} {ends : List Text} {st' : Bool} (h : Sat I dbg true n ins)
    (hst : st' = false := by rfl) : Sat I dbg st' n (instrsTill dbg ins ends) := by
  subst hst
  intro s hs hc
  have hg : Sat I dbg false n (map (fun _ => []) (peekEnd dbg ends)) :=
    sat_peekBind lex_peekEnd fun _ => sat_nil
  have := repeatTillF_sat (v := fun _ => []) (sat_retryOnce (allowed := []) h) hg (s.rest.length + 1) s hs
    (by omega) hc
  simpa [instrsTill, P.repeatTill, P.map, P.bind] using this

theorem sat_blockLike {ins : G} {kw : Text} {k : Kind} (h : ∀ m < n, Sat I dbg true m ins)
    (hkw : kw ∈ keywords) (hk : k ≠ .VAL_TYPE) : Sat I dbg st n (blockLike dbg ins kw k) := by
  have kwt : ∀ {m st}, Sat I dbg st m (keyword kw) := sat_lexTok (lexTok_keyword hkw)
  unfold blockLike
  refine sat_alt_two (sat_node ?_ hk) (sat_node ?_ hk)
  · refine sat_seq_consC kwt fun m hm => ?_
    refine sat_seq_cons (sat_optG (st := true) ?_) (sat_seq_cons (sat_optG (st := true) ?_)
      (sat_seq_cons (sat_instrsTill (h m hm)) ?_)) <;> psat
    with_reducible exact sat_blockType
  · refine sat_seq_consC (by psat) fun m hm => ?_
    refine sat_seq_consC (sat_tp kwt) fun m' hm' => ?_
    have := h m' (by omega)
    psat
    with_reducible exact sat_blockType

/-- The conditions of a folded `if`, seen as one list. -/
theorem sat_ifCondsThen {ins : G} (h : Sat I dbg true n ins) :
    Sat I dbg false n (map (fun r => r.1 ++ r.2) (ifCondsThen dbg ins)) := by
  intro s hs hc
  have hg : Sat I dbg false n (map (fun r : List Green × List Green => r.1 ++ r.2)
      (bind (trivias dbg) fun tr => map (fun lk => (tr, lk)) (seq [lParen, tp dbg (keyword t!"then")]))) := by
    have : Sat I dbg false n (tp dbg (seq [lParen, tp dbg (keyword t!"then")])) := by psat
    intro s hs hc
    have := this s hs hc
    have e : map (fun r : List Green × List Green => r.1 ++ r.2)
      (bind (trivias dbg) fun tr => map (fun lk => (tr, lk)) (seq [lParen, tp dbg (keyword t!"then")])) s =
      tp dbg (seq [lParen, tp dbg (keyword t!"then")]) s := by
      generalize hq : seq [lParen, tp dbg (keyword t!"then")] = q
      show _ = bind (trivias dbg) (fun a => map (a ++ ·) (bind q fun b => map (b ++ ·) (pure []))) s
      unfold P.map P.bind P.pure
      cases trivias dbg s with
      | ok a s1 => simp only; cases q s1 <;> simp
      | fail => rfl
      | panic => rfl
      | oof => rfl
    rw [e]; exact this
  have := repeatTillF_sat (sat_retry (allowed := []) h) hg (s.rest.length + 1) s hs (by omega) hc
  have e : map (fun r => r.1 ++ r.2) (ifCondsThen dbg ins) s =
      map (fun r => r.1.flatten ++ (r.2.1 ++ r.2.2)) (repeatTillF dbg (retry dbg ins [])
      (bind (trivias dbg) fun tr => map (fun lk => (tr, lk)) (seq [lParen, tp dbg (keyword t!"then")]))
      (s.rest.length + 1)) s := by
    unfold ifCondsThen P.repeatTill
    show map _ (map _ (fun s => repeatTillF _ _ _ _ s)) s = _
    rw [show map (fun r : List Green × List Green => r.1 ++ r.2) (map (fun r : List (List Green) × List Green × List Green => (r.1.flatten ++ r.2.1, r.2.2))
      (fun s => repeatTillF dbg (retry dbg ins [])
      (bind (trivias dbg) fun tr => map (fun lk => (tr, lk)) (seq [lParen, tp dbg (keyword t!"then")]))
      (s.rest.length + 1) s)) s = map (fun r : List Green × List Green => r.1 ++ r.2) (map (fun r : List (List Green) × List Green × List Green => (r.1.flatten ++ r.2.1, r.2.2))
      (repeatTillF dbg (retry dbg ins [])
      (bind (trivias dbg) fun tr => map (fun lk => (tr, lk)) (seq [lParen, tp dbg (keyword t!"then")]))
      (s.rest.length + 1))) s from rfl]
    generalize (repeatTillF dbg (retry dbg ins [])
      (bind (trivias dbg) fun tr => map (fun lk => (tr, lk)) (seq [lParen, tp dbg (keyword t!"then")]))
      (s.rest.length + 1)) = q
    unfold P.map P.bind P.pure
    cases q s <;> simp
  rw [e]; exact this

theorem seq_one (p : G) : seq [p] = p := by
  funext s
  show bind p (fun a => map (a ++ ·) (pure [])) s = p s
  unfold P.bind P.map P.pure P.bind
  cases p s <;> simp

/-- Sequencing with the `BLOCK_IF_THEN` node opened by what `ifCondsThen` read. -/
theorem sat_ifThen {ins q : G} {k : Kind} (h : Sat I dbg true n ins) (hq : Sat I dbg false n q)
    (hk : k ≠ .VAL_TYPE) :
    Sat I dbg false n (bind (ifCondsThen dbg ins) fun cl =>
      map (fun rest => cl.1 ++ [.node k (cl.2 ++ rest)]) q) := by
  intro s hs hc
  have h1 := sat_ifCondsThen h s hs hc
  unfold P.map P.bind P.pure at h1
  unfold P.bind
  cases hi : ifCondsThen dbg ins s <;> simp only [hi] at h1 ⊢ <;> try exact h1
  rename_i cl s1
  have hl := h1.2.1.length
  have h2 := hq s1 (by omega) (I.C_of_suf h1.2.1 hc)
  unfold P.map P.bind P.pure
  cases hqs : q s1 <;> simp only [hqs] at h2 ⊢
  · refine ⟨?_, h1.2.1.trans h2.2.1, by simp⟩
    have := I.R_trans h1.2.1 h2.2.1 h1.1 h2.1
    rw [List.append_assoc] at this
    exact I.R_wrap hk this
  · exact ⟨I.R_F h1.2.1 h2.2 h1.1 h2.1, h1.2.1.trans h2.2⟩
  · exact ⟨h2.1, h1.2.1.hasBC h2.2⟩
  · exact h2

theorem bind_assoc_seq (q : P α) (f : α → G) (ps : List G) :
    (bind q fun a => seq (f a :: ps)) = seq (bind q f :: ps) := by
  funext s
  show bind q (fun a => bind (f a) fun x => map (x ++ ·) (seq ps)) s =
    bind (bind q f) (fun x => map (x ++ ·) (seq ps)) s
  unfold P.bind
  cases q s <;> rfl

theorem sat_blockIf {ins : G} (h : ∀ m < n, Sat I dbg true m ins) : Sat I dbg st n (blockIf dbg ins) := by
  unfold blockIf
  refine sat_alt_two (sat_node ?_) (sat_node ?_)
  · refine sat_seq_consC (by psat) fun m hm => ?_
    have hi := h m hm
    refine sat_seq_cons (sat_optG (st := true) (by psat)) (sat_seq_cons (sat_optG (st := true)
      (sat_tp sat_blockType)) (sat_seq_cons (sat_node (sat_instrsTill hi)) ?_))
    refine sat_seq_cons (sat_optG (st := true) (sat_tp (sat_node ?_))) (by psat)
    refine sat_seq_consC (by psat) fun m' hm' => ?_
    refine sat_seq_cons (by psat) (sat_seq_cons (sat_instrsTill (hi.le (by omega))) sat_seq_nil)
  · refine sat_seq_consC (by psat) fun m hm => ?_
    have hi := h m hm
    refine sat_seq_consC (by psat) fun m' hm' => ?_
    have hi' := hi.le (Nat.le_of_lt hm')
    refine sat_seq_cons (by psat) (sat_seq_cons (sat_optG (st := true) (sat_tp sat_blockType)) ?_)
    rw [seq_one, bind_assoc_seq]
    refine sat_seq_cons (sat_ifThen hi' ?_ (by simp)) ?_
    · psat
    · refine sat_seq_cons (sat_optG (st := true) (sat_tp (sat_node ?_))) (by psat)
      refine sat_seq_consC (by psat) fun m2 hm2 => ?_
      have := hi'.le (Nat.le_of_lt hm2)
      psat

theorem sat_blockInstr {ins : G} (h : ∀ m < n, Sat I dbg true m ins) : Sat I dbg st n (blockInstr dbg ins) := by
  unfold blockInstr
  refine sat_peekBind (Q := fun _ _ => True) (lex_bind (Q := fun _ _ => True)
    (lex_opt (lex_bind (Q' := fun _ _ => True) (lex_lit _) fun _ _ _ => lex_trivias.mono fun _ _ _ => trivial)
      (fun _ _ _ => trivial) trivial) fun _ _ _ => lex_word.mono fun _ _ _ => trivial) fun w => ?_
  refine sat_ite (sat_blockIf h) (sat_ite ?_ (sat_ite ?_ sat_fail)) <;>
    with_reducible exact sat_blockLike h (by kwmem) (by simp)

theorem sat_instrF : ∀ fuel n, n < fuel → Sat I dbg true n (instrF dbg fuel) := by
  intro fuel
  induction fuel with
  | zero => intro n h; omega
  | succ fuel ih =>
    intro n hn
    refine sat_alt_two (sat_blockInstr fun m hm => ih m (by omega)) (sat_plainInstr fun m hm => ih m (by omega))

theorem sat_instr : Sat I dbg st n (instr dbg) := fun s _ hc =>
  (sat_instrF (s.rest.length + 1) s.rest.length (by omega) s (Nat.le_refl _) hc).weak

/-! ### Module fields -/

theorem sat_elemExpr : Sat I dbg st n (elemExpr dbg) := by
  unfold elemExpr
  refine sat_alt_two (sat_node ?_) (sat_node (sat_peekBind (lex_lit _) fun _ => sat_instr))
  psat; with_reducible exact sat_instr

theorem sat_elemList : Sat I dbg st n (elemList dbg) := by
  unfold elemList
  psat <;> first | with_reducible exact sat_index | with_reducible exact sat_elemExpr

theorem lex_trivAny : Lex dbg n (fun _ _ => True) (bind (trivias dbg) fun _ => any) :=
  lex_bind lex_trivias fun _ _ _ => lex_any.mono fun _ _ _ => trivial

theorem sat_elem : Sat I dbg st n (elem dbg) := by
  unfold elem
  refine sat_node (sat_seq_consC (by psat) fun m hm => sat_seq_cons (by psat) (sat_seq_cons ?_ (by psat)))
  refine sat_peekBind lex_trivAny fun c => ?_
  psat <;> first | with_reducible exact sat_index | with_reducible exact sat_elemExpr

theorem sat_offset : Sat I dbg st n (offset dbg) := by
  unfold offset
  refine sat_context (sat_alt_two (sat_node ?_) (sat_node (sat_peekBind (lex_lit _) fun _ => sat_instr)))
  psat; with_reducible exact sat_instr

theorem sat_moduleFieldData : Sat I dbg st n (moduleFieldData dbg) := by
  unfold moduleFieldData; psat <;> first | with_reducible exact sat_memUse | with_reducible exact sat_offset

theorem sat_moduleFieldElem : Sat I dbg st n (moduleFieldElem dbg) := by
  unfold moduleFieldElem
  refine sat_node (sat_seq_consC (by psat) fun m hm => sat_seq_cons (by psat) (sat_seq_cons (by psat)
    (sat_seq_cons ?_ (by psat))))
  refine sat_alt_three ?_ ?_ ?_ <;> psat <;>
    first | with_reducible exact sat_elemList | with_reducible exact sat_tableUse | with_reducible exact sat_offset

theorem sat_moduleFieldExport : Sat I dbg st n (moduleFieldExport dbg) := by
  unfold moduleFieldExport; psat <;> first | with_reducible exact sat_nameP | with_reducible exact sat_exportDesc

theorem sat_moduleFieldFunc : Sat I dbg st n (moduleFieldFunc dbg) := by
  unfold moduleFieldFunc
  psat <;> first | with_reducible exact sat_importP | with_reducible exact sat_exportP | with_reducible exact sat_typeUse | with_reducible exact sat_localP | with_reducible exact sat_instr

theorem sat_moduleFieldGlobal : Sat I dbg st n (moduleFieldGlobal dbg) := by
  unfold moduleFieldGlobal
  psat <;> first | with_reducible exact sat_importP | with_reducible exact sat_exportP | with_reducible exact sat_globalType | with_reducible exact sat_instr

theorem sat_moduleFieldImport : Sat I dbg st n (moduleFieldImport dbg) := by
  unfold moduleFieldImport
  psat <;> first | with_reducible exact sat_moduleName | with_reducible exact sat_nameP | with_reducible exact sat_importDesc

theorem sat_moduleFieldMemory : Sat I dbg st n (moduleFieldMemory dbg) := by
  unfold moduleFieldMemory
  refine sat_node (sat_seq_consC (by psat) fun m hm => sat_seq_cons (by psat) (sat_seq_cons (by psat)
    (sat_seq_cons (sat_optG (st := true) (sat_tp sat_importP)) (sat_seq_cons (sat_optG (st := true)
      (sat_tp sat_exportP)) (sat_seq_cons ?_ (by psat))))))
  refine sat_peekBind lex_trivAny fun c => ?_
  psat <;> first | with_reducible exact sat_dataP | with_reducible exact sat_memoryType

theorem sat_moduleFieldStart : Sat I dbg st n (moduleFieldStart dbg) := by
  unfold moduleFieldStart; psat; with_reducible exact sat_index

theorem sat_moduleFieldTable : Sat I dbg st n (moduleFieldTable dbg) := by
  unfold moduleFieldTable
  psat <;> first | with_reducible exact sat_importP | with_reducible exact sat_exportP | with_reducible exact sat_elem | with_reducible exact sat_tableType

theorem sat_moduleFieldType : Sat I dbg st n (moduleFieldType dbg) := by
  unfold moduleFieldType; psat; with_reducible exact sat_funcType

theorem sat_moduleField : Sat I dbg st n (moduleField dbg) := by
  unfold moduleField
  refine sat_context (sat_peekBind lex_peekParenWord fun w => ?_)
  refine sat_ite sat_moduleFieldFunc (sat_ite sat_moduleFieldType (sat_ite sat_moduleFieldExport
    (sat_ite sat_moduleFieldImport (sat_ite sat_moduleFieldStart (sat_ite sat_moduleFieldData
      (sat_ite sat_moduleFieldTable (sat_ite sat_moduleFieldMemory (sat_ite sat_moduleFieldGlobal
        (sat_ite sat_moduleFieldElem sat_fail)))))))))

theorem sat_moduleP : Sat I dbg st n (moduleP dbg) := by
  unfold moduleP; psat; with_reducible exact sat_moduleField

theorem sat_modules : Sat I dbg false n (many dbg (retryOnce dbg (moduleP dbg) [])) :=
  sat_many (sat_retryOnce sat_moduleP)

end Verif
