import Verif.Lemmas.Settle
/-!
Helper lemmas: what `Spec.Regular` requires beyond the productions holds of the nodes a run without errors builds (logic and
combinators).
-/
namespace Verif.Reg
open P Spec
open Lean (TSyntax)
open Lean.Meta Lean.Elab.Tactic

/-- The first token is an identifier, by its kind. -/
def HeadId (g : Green) : Prop := ∃ t r, g.toks = (.IDENT, t) :: r

/-- What could be the label of a block belongs to it. -/
def Adj (l : List Green) : Prop := ∀ a x y b, l = a ++ x :: y :: b → Unlabelled x → ¬ HeadId y

/-- What is required of the children of a node, where it does not follow from the productions. -/
def Loc (k : Kind) (cs : List Green) : Prop :=
  match k with
  | .PLAIN_INSTR => (∀ t r, stripL cs = .tok .INSTR_NAME t :: r → ∀ o c, .node .OPERAND o ∈ r → c ∈ o → c.kind ∉ instructionKinds) ∧
      Adj (stripL cs)
  | .MODULE_FIELD_ELEM => (∀ a b c r, stripL cs = a :: b :: .node .ELEM_LIST c :: r → ¬ HeadId (.node .ELEM_LIST c)) ∧
      Adj (stripL cs)
  | .OPERAND => ∀ g ∈ stripL cs, g.kind ∈ instructionKinds ∨ g.kind = .TYPE_USE → BeginsWith .L_PAREN g
  | .BLOCK_TYPE => ∀ g ∈ stripL cs, g.kind = .TYPE_USE → ¬ BeginsWith .RESULT g
  | .BLOCK_IF => ∀ g ∈ stripL cs, g.kind = .BLOCK_IF_THEN ∨ g.kind = .BLOCK_IF_ELSE →
      (BeginsWith .L_PAREN g ↔ ∃ t r, stripL cs = .tok .L_PAREN t :: r)
  | .OFFSET => ∀ g, stripL cs = [g] → g.kind ∈ instructionKinds → BeginsWith .L_PAREN g
  | .ELEM_EXPR => ∀ g, stripL cs = [g] → g.kind ∈ instructionKinds → BeginsWith .L_PAREN g
  | _ => True

mutual
/-- Every node of the tree satisfies `Loc`, and the underscores of its numbers are followed by digits. -/
def RegT : Green → Prop
  | .tok k t => k = .FLOAT → Separated t
  | .node k cs => Loc k cs ∧ RegL cs
/-- For all elements of the list. -/
def RegL : List Green → Prop
  | [] => True
  | g :: gs => RegT g ∧ RegL gs
end

theorem regL_iff {gs : List Green} : RegL gs ↔ ∀ g ∈ gs, RegT g := by
  induction gs with
  | nil => simp [RegL]
  | cons g gs ih => simp [RegL, ih]

theorem regL_append {a b : List Green} (h1 : RegL a) (h2 : RegL b) : RegL (a ++ b) := regL_iff.mpr fun g hg => by
  rcases List.mem_append.mp hg with h | h
  · exact regL_iff.mp h1 g h
  · exact regL_iff.mp h2 g h

theorem regL_flatten {l : List (List Green)} (h : ∀ a ∈ l, RegL a) : RegL l.flatten := regL_iff.mpr fun g hg => by
  obtain ⟨a, ha, hg⟩ := List.mem_flatten.mp hg
  exact regL_iff.mp (h a ha) g hg

theorem regL_blank {tr : List Green} (h : signif tr = []) : RegL tr := regL_iff.mpr fun g hg => by
  have hb : isBlank g = true := by simpa using List.filter_eq_nil_iff.mp h g hg
  cases g with
  | tok k t => intro hk; subst hk; cases hb
  | node k cs => cases hb

/-- A run without errors yields elements with `RegT`; `b`: provided white space and comments have been read before. -/
structure Rg (dbg b : Bool) (p : G) : Prop where
  mono : Mono p
  ok : ∀ {s a s'}, p s = .ok a s' → s'.errs = [] → (b = true → Settled dbg s) → RegL a

variable {dbg b : Bool} {p q : G}

theorem Rg.weak (h : Rg dbg false p) : Rg dbg b p := ⟨h.mono, fun hp he _ => h.ok hp he (by simp)⟩

theorem mono_pure_nil : Mono (P.pure (α := List Green) []) := .of (fun _ _ _ h he => by cases h; exact he) fun _ _ _ h => by cases h
theorem mono_fail : Mono (P.fail (α := List Green)) := .of (fun _ _ _ h => by cases h) fun _ _ _ h he => by cases h; exact he

theorem rg_fail : Rg dbg b P.fail := ⟨mono_fail, fun h => by cases h⟩
theorem rg_pure_nil : Rg dbg b (P.pure []) := ⟨mono_pure_nil, fun h _ _ => by cases h; trivial⟩
theorem rg_seq_nil : Rg dbg b (seq []) := rg_pure_nil

theorem rg_seq_cons {ps : List G} (h1 : Rg dbg b p) (h2 : Rg dbg false (seq ps)) : Rg dbg b (seq (p :: ps)) :=
  ⟨mono_seq_cons h1.mono h2.mono, fun h he hb => by
    obtain ⟨x, s1, y, hx, hy, rfl⟩ := seq_cons_ok h
    exact regL_append (h1.ok hx (h2.mono.ok hy he) hb) (h2.ok hy he (by simp))⟩

theorem rg_context {m : Msg} (h : Rg dbg b p) : Rg dbg b (context m p) :=
  ⟨mono_context h.mono, fun hp he hb => h.ok (context_ok hp) he hb⟩

theorem rg_alt_one (h : Rg dbg b p) : Rg dbg b (alt [p]) := h

theorem mono_alt_cons {ps : List G} (h1 : Mono p) (h2 : Mono (alt (q :: ps))) : Mono (alt (p :: q :: ps)) := by
  refine .of (fun s a s' h he => ?_) (fun s e s' h he => ?_)
  · rcases alt_ok h with h | ⟨e, s1, h3, h4⟩
    · exact h1.ok h he
    · exact h1.fail h3 (show (s1.resetTo s).errs = [] from h2.ok h4 he)
  · change alt2 p (alt (q :: ps)) s = _ at h
    unfold P.alt2 at h
    cases hps : p s <;> simp only [hps] at h <;> try cases h
    rename_i s1
    exact h1.fail hps (show (s1.resetTo s).errs = [] from h2.fail h he)

theorem rg_alt_cons {ps : List G} (h1 : Rg dbg b p) (h2 : Rg dbg b (alt (q :: ps))) : Rg dbg b (alt (p :: q :: ps)) :=
  ⟨mono_alt_cons h1.mono h2.mono, fun {s a s'} h he hb => by
    rcases alt_ok h with h | ⟨e, s1, h3, h4⟩
    · exact h1.ok h he hb
    · have e1 : s1.errs = [] := show (s1.resetTo s).errs = [] from h2.mono.ok h4 he
      have e2 := h1.mono.fail h3 e1
      rw [reset_clean e2 e1] at h4
      exact h2.ok h4 he hb⟩

theorem mono_optG (h : Mono p) : Mono (optG p) := by
  refine .of (fun s a s' hp he => ?_) (fun s e s' hp he => ?_)
  · rcases optG_ok hp with hp | ⟨_, e, s1, hp2, rfl⟩
    · exact h.ok hp he
    · exact h.fail hp2 he
  · have := map_fail hp
    unfold P.opt at this
    cases hps : p s <;> simp only [hps] at this <;> cases this

theorem rg_optG (h : Rg dbg b p) : Rg dbg b (optG p) :=
  ⟨mono_optG h.mono, fun hp he hb => by
    rcases optG_ok hp with hp | ⟨rfl, _⟩
    · exact h.ok hp he hb
    · trivial⟩

theorem mono_repeatF (h : Mono p) : ∀ fuel, Mono (repeatF dbg p fuel)
  | 0 => .of (fun _ _ _ h => by cases h) fun _ _ _ h => by cases h
  | fuel + 1 => by
    have ih := mono_repeatF h fuel
    refine .of (fun s a s' hp he => ?_) (fun s e s' hp he => ?_) <;> unfold repeatF at hp <;>
      cases hps : p s <;> simp only [hps] at hp <;> try cases hp
    · split at hp
      · unfold assertFail at hp; split at hp <;> cases hp
      · obtain ⟨l, h1, rfl⟩ := map_ok hp
        exact h.ok hps (ih.ok h1 he)
    · exact h.fail hps he
    · split at hp
      · unfold assertFail at hp; split at hp <;> cases hp
        exact h.ok hps he
      · exact h.ok hps (ih.fail (map_fail hp) he)

theorem mono_many (h : Mono p) : Mono (many dbg p) := mono_map (.of (fun _ _ _ hp he => (mono_repeatF h _).ok hp he) fun _ _ _ hp he => (mono_repeatF h _).fail hp he)

/-- A repetition without errors, from the inside: any relation between states and the elements read from there that holds of
nothing and can be extended at the front. -/
theorem repeatF_ind (h : Mono p) {R : St → List (List Green) → St → Prop} (h0 : ∀ s, R s [] s)
    (h1 : ∀ s a s1 l s', p s = .ok a s1 → s1.errs = [] → R s1 l s' → R s (a :: l) s') :
    ∀ fuel s l s', repeatF dbg p fuel s = .ok l s' → s'.errs = [] → R s l s' := by
  intro fuel
  induction fuel with
  | zero => intro s l s' hp; cases hp
  | succ fuel ih =>
    intro s l s' hp he
    unfold repeatF at hp
    cases hps : p s <;> simp only [hps] at hp <;> try cases hp
    · split at hp
      · unfold assertFail at hp; split at hp <;> cases hp
      · obtain ⟨l, h3, rfl⟩ := map_ok hp
        exact h1 _ _ _ _ _ hps ((mono_repeatF h _).ok h3 he) (ih _ _ _ h3 he)
    · rename_i s1
      have h3 := h.fail hps he
      rw [reset_clean h3 (show s1.errs = [] from he)]
      exact h0 s

theorem many_ind (h : Mono p) {R : St → List (List Green) → St → Prop} (h0 : ∀ s, R s [] s)
    (h1 : ∀ s a s1 l s', p s = .ok a s1 → s1.errs = [] → R s1 l s' → R s (a :: l) s') {s a s'}
    (hp : many dbg p s = .ok a s') (he : s'.errs = []) : ∃ l, a = l.flatten ∧ R s l s' := by
  obtain ⟨l, h2, rfl⟩ := map_ok hp
  exact ⟨l, rfl, repeatF_ind h h0 h1 _ _ _ _ h2 he⟩

theorem rg_many (h : Rg dbg false p) : Rg dbg b (many dbg p) :=
  ⟨mono_many h.mono, fun hp he _ => by
    obtain ⟨l, rfl, hl⟩ := many_ind h.mono (R := fun _ l _ => ∀ a ∈ l, RegL a) (fun _ => by simp)
      (fun s a s1 l s' h1 h2 h3 x hx => by
        rcases List.mem_cons.mp hx with rfl | hx
        · exact h.ok h1 h2 (by simp)
        · exact h3 x hx) hp he
    exact regL_flatten hl⟩

theorem many1_ok {s a s'} (hp : many1 dbg p s = .ok a s') : ∃ x s1 y, p s = .ok x s1 ∧ many dbg p s1 = .ok y s' ∧ a = x ++ y := by
  obtain ⟨l, h1, rfl⟩ := map_ok hp
  unfold repeat1 at h1
  cases hps : p s <;> simp only [hps] at h1 <;> try cases h1
  obtain ⟨as, h2, rfl⟩ := map_ok h1
  refine ⟨_, _, as.flatten, rfl, ?_, by simp⟩
  unfold many P.map P.bind
  rw [h2]; rfl

theorem mono_many1 (h : Mono p) : Mono (many1 dbg p) := by
  refine .of (fun s a s' hp he => ?_) (fun s e s' hp he => ?_)
  · obtain ⟨x, s1, y, h1, h2, _⟩ := many1_ok hp
    exact h.ok h1 ((mono_many h).ok h2 he)
  · have h1 := map_fail hp
    unfold repeat1 at h1
    cases hps : p s <;> simp only [hps] at h1 <;> try cases h1
    · exact h.ok hps ((mono_repeatF (dbg := dbg) h _).fail (map_fail h1) he)
    · exact h.fail hps he

theorem rg_many1 (h : Rg dbg false p) : Rg dbg b (many1 dbg p) :=
  ⟨mono_many1 h.mono, fun hp he _ => by
    obtain ⟨x, s1, y, h1, h2, rfl⟩ := many1_ok hp
    exact regL_append (h.ok h1 ((mono_many h.mono).ok h2 he) (by simp)) ((rg_many (b := false) h).ok h2 he (by simp))⟩

/-- The kinds of nodes for which `Loc` requires something. -/
def special : Kind → Bool
  | .PLAIN_INSTR | .MODULE_FIELD_ELEM | .OPERAND | .BLOCK_TYPE | .BLOCK_IF | .OFFSET | .ELEM_EXPR => true
  | _ => false

theorem loc_plain {k : Kind} {cs : List Green} (h : special k = false) : Loc k cs := by cases k <;> first | trivial | cases h

theorem mono_node {k : Kind} (h : Mono p) : Mono (nodeP k p) := mono_map h

theorem rg_node {k : Kind} (h : Rg dbg b p) (hk : special k = false) : Rg dbg b (nodeP k p) :=
  ⟨mono_node h.mono, fun hp he hb => by
    obtain ⟨cs, h1, rfl⟩ := node_ok hp
    exact ⟨⟨loc_plain hk, h.ok h1 he hb⟩, trivial⟩⟩

theorem mono_tp (h : Mono p) : Mono (tp dbg p) := mono_seq_cons mono_trivias (mono_seq_cons h mono_pure_nil)

theorem rg_tp (h : Rg dbg true p) : Rg dbg b (tp dbg p) :=
  ⟨mono_tp h.mono, fun hp he _ => by
    obtain ⟨tr, s1, o, h1, h2, rfl⟩ := tp_ok hp
    exact regL_append (regL_blank (trivias_yield h1).2.1) (h.ok h2 he fun _ => settled h1)⟩

theorem rg_trivSeq (h : Rg dbg true p) : Rg dbg b (seq [trivias dbg, p]) := rg_tp h

theorem mono_retryOnce {al : List Text} (h : Mono p) : Mono (retryOnce dbg p al) :=
  mono_retryRound h fun _ => .of (fun _ _ _ hp he => by cases hp; exact he) fun _ _ _ hp => by cases hp

theorem rg_retryOnce {al : List Text} (h : Rg dbg true p) : Rg dbg b (retryOnce dbg p al) :=
  ⟨mono_retryOnce h.mono, fun hp he _ => by
    obtain ⟨tr, s1, o, h1, h2, rfl⟩ := retryOnce_ok hp he
    exact regL_append (regL_blank (trivias_yield h1).2.1) (h.ok h2 he fun _ => settled h1)⟩

theorem mono_retry {al : List Text} (h : Mono p) : Mono (retry dbg p al) :=
  .of (fun _ _ _ hp he => (mono_retryF h _ _).ok hp he) fun _ _ _ hp he => (mono_retryF h _ _).fail hp he

theorem rg_retry {al : List Text} (h : Rg dbg true p) : Rg dbg b (retry dbg p al) :=
  ⟨mono_retry h.mono, fun hp he _ => by
    obtain ⟨tr, s1, o, h1, h2, rfl⟩ := retry_ok h.mono hp he
    exact regL_append (regL_blank (trivias_yield h1).2.1) (h.ok h2 he fun _ => settled h1)⟩

theorem mono_must (h : Mono p) : Mono (must p) := by
  refine .of (fun s a s' hp he => h.ok (must_ok hp he) he) (fun s e s' hp he => ?_)
  unfold must at hp
  cases hps : p s <;> simp only [hps] at hp <;> cases hp

theorem rg_must (h : Rg dbg b p) : Rg dbg b (must p) := ⟨mono_must h.mono, fun hp he hb => h.ok (must_ok hp he) he hb⟩

/-- Tokens other than numbers. -/
theorem rg_ofTok {st : Bool} {t : Term} (h : Snd st p [[.one [t]]]) (ht : (match t with | .node _ => true | .tok .FLOAT => true | _ => false) = false) :
    Rg dbg b p :=
  ⟨h.mono, fun {s a s'} hp he _ => by
    have k := (h.ok hp he).2.1
    obtain ⟨t', h1, g, h2, h3⟩ := match_one (matchAny_one k.prod)
    simp only [List.mem_singleton] at h1
    subst h1
    refine regL_iff.mpr fun x hx => ?_
    by_cases hb : isBlank x = true
    · exact regL_iff.mp (regL_blank (tr := [x]) (by simp [signif, hb])) x (by simp)
    · have : x ∈ signif a := List.mem_filter.mpr ⟨hx, by simpa using hb⟩
      rw [h2, List.mem_singleton] at this
      subst this
      cases x with
      | node k cs =>
        cases t' with
        | node k' => cases ht
        | tok k' => exact absurd h3 (by simp [Term.is])
        | word w => exact absurd h3 (by simp [Term.is])
      | tok k w =>
        intro hk
        subst hk
        cases t' with
        | tok k' => simp only [Term.is] at h3; subst h3; cases ht
        | node k' => cases ht
        | word w' => exact absurd h3.1 (by decide)⟩

theorem separated_of {hl : Bool} {t : Text} (h : floatUnderscoresOk hl t = true) (a b : Text)
    (ht : t = a ++ '_' :: b) : ∃ d r, b = d :: r ∧ (d ∈ digits ∨ hl = true ∧ d ∈ hexDigits) := by
  fun_induction floatUnderscoresOk hl t generalizing a with
  | case1 => simp at ht
  | case2 => simp at h
  | case3 c hc d ds ih =>
    simp only [beq_iff_eq] at hc; subst hc
    simp only [Bool.and_eq_true] at h
    have hd : d ∈ digits ∨ hl = true ∧ d ∈ hexDigits := by
      have h1 := h.1
      split at h1
      · rename_i hh; exact .inr ⟨hh, isHex_mem h1⟩
      · exact .inl (isDigit_mem h1)
    match a, ht with
    | [], ht => simp at ht; exact ⟨d, ds, ht.symm, hd⟩
    | [x], ht =>
      simp at ht
      exfalso
      rw [ht.2.1] at hd
      rcases hd with hd | ⟨_, hd⟩ <;> revert hd <;> decide
    | x :: y :: a, ht =>
      simp at ht
      exact ih h.2 a ht.2.2
  | case4 c cs hc ih =>
    match a, ht with
    | [], ht => simp at ht; simp [ht.1] at hc
    | x :: a, ht =>
      simp at ht
      exact ih h a ht.2

theorem rg_float : Rg dbg b float :=
  ⟨snd_float.mono, fun hp _ _ => by
    obtain ⟨t, h1, rfl⟩ := map_ok hp
    have := (verify_ok h1).2
    refine ⟨fun _ a b hab => ?_, trivial⟩
    obtain ⟨d, r, h2, h3⟩ := separated_of this a b hab
    exact ⟨d, r, h2, h3.imp_right fun h => ⟨List.isPrefixOf_iff_prefix.mp h.1, h.2⟩⟩⟩

theorem rg_valType : Rg dbg b valType :=
  ⟨snd_valType.mono, fun hp _ _ => by
    obtain ⟨g, h1, rfl⟩ := map_ok hp
    obtain ⟨w, _, h2⟩ := verifyMap_ok (context_ok h1)
    obtain ⟨k, rfl, hk⟩ := valTypeTok_term h2
    refine ⟨⟨trivial, fun h => ?_, trivial⟩, trivial⟩
    subst h
    simp at hk⟩

theorem mono_bind {x : P α} {f : α → G} (hx : Mono x) (hf : ∀ a, Mono (f a)) : Mono (bind x f) := by
  refine .of (fun s a s' h he => ?_) (fun s e s' h he => ?_)
  · obtain ⟨y, s1, h1, h2⟩ := bind_ok h
    exact hx.ok h1 ((hf y).ok h2 he)
  · rcases bind_fail h with h | ⟨y, s1, h1, h2⟩
    · exact hx.fail h he
    · exact hx.ok h1 ((hf y).fail h2 he)

/-- Looking ahead leaves the state as it is. -/
theorem peek_ok {x : P α} (hx : Mono x) {s : St} {y : α} {s1 : St} (h : peek x s = .ok y s1) (he : s1.errs = []) :
    s1 = s ∧ ∃ s2, x s = .ok y s2 := by
  unfold P.peek at h
  cases hps : x s <;> simp only [hps] at h <;> cases h
  rename_i s2
  have e2 : s2.errs = [] := he
  exact ⟨reset_clean (hx.ok hps e2) e2, _, rfl⟩

theorem rg_peekBind {x : P α} {f : α → G} (hx : Mono x) (hf : ∀ a, Rg dbg b (f a)) : Rg dbg b (bind (peek x) f) :=
  ⟨mono_bind (mono_peek hx) fun a => (hf a).mono, fun h he hb => by
    obtain ⟨y, s1, h1, h2⟩ := bind_ok h
    have e1 := (hf y).mono.ok h2 he
    obtain ⟨rfl, _⟩ := peek_ok hx h1 e1
    exact (hf y).ok h2 he hb⟩

theorem rg_ite {c : Bool} (h1 : Rg dbg b p) (h2 : Rg dbg b q) : Rg dbg b (if c then p else q) := by cases c <;> simpa

/-- One step of the syntax-directed proof; `l` are lemmas for calls of other parsers. -/
elab "rg1" "[" l:ident,* "]" : tactic => withMainContext do
  let t := (← Lean.instantiateMVars (← getMainTarget)).consumeMData
  let go (stx : TSyntax `tactic) := evalTactic stx
  if t.isAppOf ``Eq then go (← `(tactic| decide)) else
  unless t.isAppOf ``Rg do throwError "rg1: not a goal about a parser"
  let p := t.getAppArgs[2]!
  let f := p.getAppFn.constName?.getD .anonymous
  for i in l.getElems do
    try withoutRecover (go (← `(tactic| with_reducible exact $i))); return catch _ => pure ()
    try withoutRecover (go (← `(tactic| with_reducible exact Rg.weak $i))); return catch _ => pure ()
  match f with
  | ``P.fail => go (← `(tactic| exact rg_fail))
  | ``P.pure => go (← `(tactic| exact rg_pure_nil))
  | ``P.context => go (← `(tactic| apply rg_context))
  | ``Verif.seq =>
    if (p.getAppArgs.back!).isAppOf ``List.nil then go (← `(tactic| exact rg_seq_nil))
    else if ((p.getAppArgs.back!).getAppArgs[1]!).isAppOf ``trivias then go (← `(tactic| apply rg_trivSeq))
    else go (← `(tactic| apply rg_seq_cons))
  | ``P.alt =>
    if (p.getAppArgs.back!).getAppArgs.back!.isAppOf ``List.nil then go (← `(tactic| apply rg_alt_one))
    else go (← `(tactic| apply rg_alt_cons))
  | ``optG => go (← `(tactic| apply rg_optG))
  | ``many => go (← `(tactic| apply rg_many))
  | ``many1 => go (← `(tactic| apply rg_many1))
  | ``nodeP => go (← `(tactic| apply rg_node))
  | ``tp => go (← `(tactic| apply rg_tp))
  | ``retryOnce => go (← `(tactic| apply rg_retryOnce))
  | ``retry => go (← `(tactic| apply rg_retry))
  | ``must => go (← `(tactic| apply rg_must))
  | ``rParen => go (← `(tactic| exact rg_ofTok snd_rParen rfl))
  | ``lParen => go (← `(tactic| exact rg_ofTok snd_lParen rfl))
  | ``keyword => go (← `(tactic| exact rg_ofTok (snd_keyword (by decide +kernel)) rfl))
  | ``ident => go (← `(tactic| exact rg_ofTok snd_ident rfl))
  | ``string => go (← `(tactic| exact rg_ofTok snd_string rfl))
  | ``unsignedInt => go (← `(tactic| exact rg_ofTok snd_unsignedInt rfl))
  | ``int => go (← `(tactic| exact rg_ofTok snd_int rfl))
  | ``float => go (← `(tactic| exact rg_float))
  | ``share => go (← `(tactic| exact rg_ofTok snd_share rfl))
  | ``instrName => go (← `(tactic| exact rg_ofTok snd_instrName rfl))
  | ``memArg => go (← `(tactic| exact rg_ofTok snd_memArg rfl))
  | ``refType => go (← `(tactic| exact rg_ofTok snd_refType rfl))
  | ``heapType => go (← `(tactic| exact rg_ofTok snd_heapType rfl))
  | ``valType => go (← `(tactic| exact rg_valType))
  | _ => throwError "rg1: {p}"

/-- Repeats `rg1`; `l` are lemmas for the remaining calls. -/
macro "rg" "[" l:ident,* "]" : tactic => `(tactic| repeat' rg1 [$l,*])

/-! ### Parts without instructions -/

theorem rg_param : Rg dbg b (param dbg) := by unfold param; rg []
theorem rg_result : Rg dbg b (result dbg) := by unfold result; rg []
theorem rg_funcType : Rg dbg b (funcType dbg) := by unfold funcType; rg [rg_param, rg_result]
theorem rg_limits : Rg dbg b (limits dbg) := by unfold limits; rg []
theorem rg_tableType : Rg dbg b (tableType dbg) := by unfold tableType; rg [rg_limits]
theorem rg_memoryType : Rg dbg b (memoryType dbg) := by unfold memoryType; rg [rg_limits]
theorem rg_globalType : Rg dbg b (globalType dbg) := by unfold globalType; rg []
theorem rg_index : Rg dbg b index := by unfold index; rg []
theorem rg_typeUse : Rg dbg b (typeUse dbg) := by unfold typeUse; rg [rg_param, rg_result, rg_index]
theorem rg_localP : Rg dbg b (localP dbg) := by unfold localP; rg []
theorem rg_moduleName : Rg dbg b moduleName := by unfold moduleName; rg []
theorem rg_nameP : Rg dbg b nameP := by unfold nameP; rg []
theorem rg_importP : Rg dbg b (importP dbg) := by unfold importP; rg [rg_moduleName, rg_nameP]
theorem rg_exportP : Rg dbg b (exportP dbg) := by unfold exportP; rg [rg_nameP]
theorem rg_importDescGlobalType : Rg dbg b (importDescGlobalType dbg) := by unfold importDescGlobalType; rg [rg_globalType]
theorem rg_importDescMemoryType : Rg dbg b (importDescMemoryType dbg) := by unfold importDescMemoryType; rg [rg_memoryType]
theorem rg_importDescTableType : Rg dbg b (importDescTableType dbg) := by unfold importDescTableType; rg [rg_tableType]
theorem rg_importDescTypeUse : Rg dbg b (importDescTypeUse dbg) := by unfold importDescTypeUse; rg [rg_typeUse]

theorem rg_importDesc : Rg dbg b (importDesc dbg) := by
  unfold importDesc peekParenWord
  exact rg_context (rg_peekBind mono_parenWord fun w => rg_ite rg_importDescTypeUse (rg_ite rg_importDescGlobalType
    (rg_ite rg_importDescMemoryType (rg_ite rg_importDescTableType rg_fail))))

theorem rg_exportDesc : Rg dbg b (exportDesc dbg) := by
  unfold exportDesc peekParenWord exportDescVariant
  refine rg_context (rg_peekBind mono_parenWord fun w => ?_)
  refine rg_ite ?_ (rg_ite ?_ (rg_ite ?_ (rg_ite ?_ rg_fail))) <;> rg [rg_index]

theorem rg_memUse : Rg dbg b (memUse dbg) := by unfold memUse; rg [rg_index]
theorem rg_tableUse : Rg dbg b (tableUse dbg) := by unfold tableUse; rg [rg_index]
theorem rg_dataP : Rg dbg b (dataP dbg) := by unfold dataP; rg []

end Verif.Reg
