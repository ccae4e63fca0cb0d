import Verif.Lemmas.GrammarSat
/-!
Helper lemmas: the outcome of the whole parse, for a generic invariant.
-/
namespace Verif
open P Spec

variable {I : PInv} {dbg : Bool} {n : Nat} {st : Bool}

/-- A repetition whose body always consumes never fails. -/
theorem repeatF_ne_fail {p : P α} (hp : ∀ s a s', p s = .ok a s' → s'.rest.length < s.rest.length) :
    ∀ fuel s e s', repeatF dbg p fuel s ≠ .fail e s' := by
  intro fuel
  induction fuel with
  | zero => intro s e s' h; simp [P.repeatF] at h
  | succ fuel ih =>
    intro s e s' h
    unfold P.repeatF at h
    cases hps : p s <;> simp only [hps] at h
    · rename_i a s1
      have := hp s a s1 hps
      rw [if_neg (by omega)] at h
      exact ih _ _ _ (map_fail h)
    all_goals cases h

/-- Where a repetition of a lexical parser stops, the parser fails. -/
theorem repeatF_stop {p : P α} {Q : α → Text → Prop} (hp : Lex dbg n Q p) :
    ∀ fuel s as s', s.rest.length ≤ n → repeatF dbg p fuel s = .ok as s' → ∃ e s'', p s' = .fail e s'' := by
  intro fuel
  induction fuel with
  | zero => intro s as s' _ h; simp [P.repeatF] at h
  | succ fuel ih =>
    intro s as s' hs h
    have hl := hp s hs
    unfold P.repeatF at h
    cases hps : p s <;> simp only [hps, LexOut] at h hl
    · rename_i a s1
      obtain ⟨c, ha, _⟩ := hl
      have := ha.length
      split at h
      · unfold P.assertFail at h; split at h <;> cases h
      · unfold P.map P.bind P.pure at h
        cases hr : repeatF dbg p fuel s1 <;> simp only [hr] at h <;> cases h
        exact ih s1 _ _ (by omega) hr
    · obtain ⟨c, ha, _⟩ := hl
      cases h
      rw [ha.resetTo]; exact ⟨_, _, hps⟩
    all_goals cases h

/-- The body of the trailing loop of `root`. -/
abbrev rootTail (dbg : Bool) : G := alt [ws, lineComment, blockComment dbg, errorToken true]

theorem lex_rootTail : Lex dbg n (fun gs c => Toks AnyKind gs c ∧ c ≠ []) (rootTail dbg) := by
  refine lex_alt ?_
  simp only [List.mem_cons, List.not_mem_nil, or_false, forall_eq_or_imp, forall_eq]
  exact ⟨lex_ws.mono fun _ _ h => ⟨h.1.any, h.2⟩, lex_lineComment.mono fun _ _ h => ⟨h.1.any, h.2⟩,
    lex_blockComment.mono fun _ _ h => ⟨h.1.any, h.2⟩, (lex_errorToken true).mono fun _ _ h => ⟨h.1, h.2.2⟩⟩

/-- What a successful parse consists of. -/
structure Parsed (I : PInv) (dbg : Bool) (src : Text) (t : Green) (errs : List Err) (dropped : Text) : Prop where
  ex : ∃ a b c s1 s2, t = .node .ROOT (a ++ b) ∧ I.R (St.init src) a s1 ∧ Suf (St.init src) s1 ∧
    Adv s1 c s2 ∧ Toks AnyKind b c ∧ dropped = s2.rest ∧
    errs = s2.errs ++ (if dropped.isEmpty then [] else [⟨0, bytes src, .unknown⟩]) ∧
    ∃ e s3, rootTail dbg s2 = .fail e s3

/-- Outcome of the whole parse. -/
theorem parse_out (I : PInv) (dbg : Bool) (src : Text) (hC : I.C src) :
    (∃ t errs d, parse dbg src = .tree t errs d ∧ Parsed I dbg src t errs d) ∨
    (dbg = true ∧ HasBC src ∧ parse dbg src = .panic) := by
  have h1 := sat_modules (I := I) (dbg := dbg) (n := src.length) (St.init src) (Nat.le_refl _) hC
  have nofail1 : ∀ s e s', many dbg (retryOnce dbg (moduleP dbg) []) s ≠ .fail e s' := by
    intro s e s' h
    refine repeatF_ne_fail (fun s a s' hs => ?_) _ _ _ _ (map_fail h)
    -- consumption does not depend on the invariant: use the trivial one
    have := sat_retryOnce (I := ⟨fun _ => True, fun _ _ _ => True, fun _ _ _ => True, by simp, by simp, by simp,
      by simp, by simp, by simp, by simp, by simp, by simp, by simp, by simp, by simp, by simp, by simp⟩)
      (dbg := dbg) (st := true) (n := s.rest.length) (allowed := []) sat_moduleP s (Nat.le_refl _) trivial
    rw [hs] at this
    exact this.2.2 rfl
  have nofail2 : ∀ s e s', many dbg (rootTail dbg) s ≠ .fail e s' := by
    intro s e s' h
    refine repeatF_ne_fail (fun s a s' hs => ?_) _ _ _ _ (map_fail h)
    have := lex_rootTail (dbg := dbg) (n := s.rest.length) s (Nat.le_refl _)
    rw [hs] at this
    obtain ⟨c, ha, _, hne⟩ := this
    have := ha.length
    have := List.length_pos_iff.mpr hne
    omega
  unfold parse
  have hroot : rootChildren dbg (St.init src) =
      bind (many dbg (retryOnce dbg (moduleP dbg) [])) (fun a => map (a ++ ·) (many dbg (rootTail dbg)))
        (St.init src) := by
    show bind _ (fun a => map (a ++ ·) (seq [many dbg (rootTail dbg)])) _ = _
    rw [seq_one]
  rw [hroot]
  unfold P.bind
  cases hm : many dbg (retryOnce dbg (moduleP dbg) []) (St.init src) with
  | fail e s' => exact absurd hm (nofail1 _ _ _)
  | oof => rw [hm] at h1; exact h1.elim
  | panic => rw [hm] at h1; exact .inr ⟨h1.1, h1.2, rfl⟩
  | ok a s1 =>
    rw [hm] at h1
    simp only
    rw [map_append_eq]
    have h2 := lex_many (lex_rootTail (dbg := dbg) (n := s1.rest.length)) s1 (Nat.le_refl _)
    cases hm2 : many dbg (rootTail dbg) s1 with
    | fail e s' => exact absurd hm2 (nofail2 _ _ _)
    | oof => rw [hm2] at h2; exact h2.elim
    | panic =>
      rw [hm2] at h2
      exact .inr ⟨h2.1, h1.2.1.hasBC h2.2, rfl⟩
    | ok b s2 =>
      rw [hm2] at h2
      obtain ⟨c, ha, hb⟩ := h2
      left
      have hstop : ∃ e s3, rootTail dbg s2 = .fail e s3 := by
        unfold many P.map P.bind P.repeat0 P.pure at hm2
        cases hr : repeatF dbg (rootTail dbg) (s1.rest.length + 1) s1 <;> simp only [hr] at hm2 <;> cases hm2
        exact repeatF_stop (lex_rootTail (n := s1.rest.length)) _ _ _ _ (Nat.le_refl _) hr
      have hpos : s2.pos + bytes s2.rest = bytes src := by
        obtain ⟨x, hx, px⟩ := h1.2.1
        have h3 := ha.rest
        have h4 := ha.pos
        simp only [St.init] at hx px
        rw [hx, h3, bytes_append, bytes_append]; omega
      simp only [Out.prep]
      by_cases hd : s2.rest.isEmpty = true
      · rw [if_pos hd]
        have hd' : s2.rest = [] := by simpa using hd
        refine ⟨_, _, _, rfl, ⟨a, b, c, s1, s2, rfl, h1.1, h1.2.1, ha, hb, hd'.symm, ?_, hstop⟩⟩
        simp
      · rw [if_neg hd]
        refine ⟨_, _, _, rfl, ⟨a, b, c, s1, s2, rfl, h1.1, h1.2.1, ha, hb, rfl, ?_, hstop⟩⟩
        simp [hd, St.record, Err.stamp, Err.new, hpos]

theorem parse_tree {I : PInv} {dbg : Bool} {src : Text} {t : Green} {errs : List Err} {d : Text}
    (hC : I.C src) (h : parse dbg src = .tree t errs d) : Parsed I dbg src t errs d := by
  rcases parse_out I dbg src hC with ⟨t', errs', d', h1, h2⟩ | ⟨_, _, h1⟩
  · rw [h] at h1; cases h1; exact h2
  · rw [h] at h1; cases h1

/-! ### Instances -/

/-- Losslessness. -/
def invText : PInv where
  C t := ¬ BadQuote t
  R s gs s' := s.rest = Green.textL gs ++ s'.rest
  F _ _ _ := True
  C_suf h hb := h (BadQuote.append hb)
  R_nil s := by simp [Green.textL]
  R_trans _ _ h1 h2 := by rw [h1, h2, textL_append]; simp
  R_F _ _ _ _ := trivial
  F_ctx _ _ := trivial
  F_stamp _ _ := trivial
  F_move _ _ _ _ := trivial
  F_drop _ _ := by simp [Green.textL, St.resetTo]
  F_record _ _ := by simp [Green.textL, St.resetTo]
  R_wrap _ h := by simpa [textL_append, Green.textL, Green.text] using h
  R_tok _ _ h := by simpa [Green.textL, Green.text] using h.rest
  R_val _ _ h := by simpa [Green.textL, Green.text] using h.rest
  F_lex _ _ := trivial
  R_err hC _ _ ha ht _ hor := by
    rcases hor with rfl | hb
    · have := ha.rest
      rw [ht.1]
      simpa [St.resetTo, St.record] using this
    · exact absurd hb hC

/-- Losslessness of runs that record no error. -/
def invClean : PInv where
  C _ := True
  R s gs s' := s'.errs = [] → s.errs = [] ∧ s.rest = Green.textL gs ++ s'.rest
  F s _ s' := s'.errs = [] → s.errs = []
  C_suf _ := trivial
  R_nil s he := by simp [Green.textL, he]
  R_trans _ _ h1 h2 he := by
    have k2 := h2 he
    have k1 := h1 k2.1
    exact ⟨k1.1, by rw [k1.2, k2.2, textL_append]; simp⟩
  R_F _ _ h1 h2 he := (h1 (h2 he)).1
  F_ctx _ h := h
  F_stamp _ h := h
  F_move _ _ h he h' := h (he ▸ h')
  F_drop _ h he := ⟨h he, by simp [Green.textL, St.resetTo]⟩
  F_record _ _ he := by simp [St.resetTo, St.record] at he
  R_wrap _ h he := by simpa [textL_append, Green.textL, Green.text] using h he
  R_tok _ _ h he := ⟨by rw [← h.errs, he], by simpa [Green.textL, Green.text] using h.rest⟩
  R_val _ _ h he := ⟨by rw [← h.errs, he], by simpa [Green.textL, Green.text] using h.rest⟩
  F_lex h _ he := by rw [← h.errs, he]
  R_err _ _ _ _ _ _ _ he := by simp [St.record] at he

/-- Both ends of an error are character boundaries of the remaining text. -/
def ErrsIn (s s' : St) : Prop := ∃ es, s'.errs = s.errs ++ es ∧ ∀ e ∈ es, ErrIn s e

theorem Within.suf {s s' o} (h : Suf s s') (w : Within s' o) : Within s o := by
  obtain ⟨c, hc, pc⟩ := h
  obtain ⟨a, b, h1, h2⟩ := w
  exact ⟨c ++ a, b, by rw [hc, h1]; simp, by rw [h2, pc, bytes_append]; omega⟩

theorem Within.ofSuf {s s'} (h : Suf s s') : Within s s'.pos := by
  obtain ⟨c, hc, pc⟩ := h; exact ⟨c, s'.rest, hc, pc⟩

theorem ErrIn.suf {s s' e} (h : Suf s s') (w : ErrIn s' e) : ErrIn s e :=
  ⟨w.1.imp id (Within.suf h), w.2.imp id (Within.suf h)⟩

theorem ErrsIn.refl (s : St) : ErrsIn s s := ⟨[], by simp, by simp⟩

theorem ErrsIn.trans {s s1 s2} (hs : Suf s s1) (h1 : ErrsIn s s1) (h2 : ErrsIn s1 s2) : ErrsIn s s2 := by
  obtain ⟨a, ha, ha'⟩ := h1
  obtain ⟨b, hb, hb'⟩ := h2
  refine ⟨a ++ b, by rw [hb, ha]; simp, fun e he => ?_⟩
  rcases List.mem_append.mp he with h | h
  · exact ha' e h
  · exact (hb' e h).suf hs

theorem ErrsIn.congr {s s1 s2} (h : ErrsIn s s1) (he : s2.errs = s1.errs) : ErrsIn s s2 := by
  unfold ErrsIn; rw [he]; exact h

theorem ErrsIn.record {s s' e} (h : ErrsIn s s') (hs : Suf s s') (he : ErrIn s e) :
    ErrsIn s (s'.record e) := by
  obtain ⟨a, ha, ha'⟩ := h
  refine ⟨a ++ [e.stamp s'], by simp [St.record, ha], fun x hx => ?_⟩
  rcases List.mem_append.mp hx with h | h
  · exact ha' x h
  · simp at h; subst h; exact ⟨he.1, .inr (Within.ofSuf hs)⟩

/-- Bounds of recorded errors. -/
def invErrs : PInv where
  C _ := True
  R s _ s' := ErrsIn s s'
  F s e s' := ErrsIn s s' ∧ ErrIn s e
  C_suf _ := trivial
  R_nil := ErrsIn.refl
  R_trans hs _ h1 h2 := h1.trans hs h2
  R_F hs _ h1 h2 := ⟨h1.trans hs h2.1, h2.2.suf hs⟩
  F_ctx hs h := ⟨h.1, .inr (Within.ofSuf hs), h.2.2⟩
  F_stamp hs h := ⟨h.1, h.2.1, .inr (Within.ofSuf hs)⟩
  F_move _ _ h he := ⟨h.1.congr he, h.2⟩
  F_drop _ h := h.1
  F_record hs h := (h.1.record hs h.2).congr rfl
  R_wrap _ h := h
  R_tok _ _ h := (ErrsIn.refl _).congr h.errs
  R_val _ _ h := (ErrsIn.refl _).congr h.errs
  F_lex h he := ⟨(ErrsIn.refl _).congr h.errs, he⟩
  R_err _ _ hF ha _ _ _ :=
    (hF.1.congr ha.errs).record ⟨_, ha.rest, ha.pos⟩ hF.2

/-- Every token has the shape of its kind. -/
def invShape : PInv where
  C _ := True
  R _ gs _ := ∀ kt ∈ Green.toksL gs, TokenShape kt.1 kt.2
  F _ _ _ := True
  C_suf _ := trivial
  R_nil _ := by simp [Green.toksL]
  R_trans _ _ h1 h2 := by
    intro kt hk
    rw [toksL_append] at hk
    rcases List.mem_append.mp hk with h | h
    · exact h1 kt h
    · exact h2 kt h
  R_F _ _ _ _ := trivial
  F_ctx _ _ := trivial
  F_stamp _ _ := trivial
  F_move _ _ _ _ := trivial
  F_drop _ _ := by simp [Green.toksL]
  F_record _ _ := by simp [Green.toksL]
  R_wrap _ h := by
    intro kt hk
    rw [toksL_append] at hk
    apply h; rw [toksL_append]
    simpa [Green.toksL, Green.toks] using hk
  R_tok _ hs _ := by simpa [Green.toksL, Green.toks] using hs
  R_val hs _ _ := by simpa [Green.toksL, Green.toks] using hs
  F_lex _ _ := trivial
  R_err _ _ _ _ ht _ _ := toks_shape ht
where
  toksL_append (a b : List Green) : Green.toksL (a ++ b) = Green.toksL a ++ Green.toksL b := by
    induction a with
    | nil => simp [Green.toksL]
    | cons g a ih => simp [Green.toksL, ih]
  toks_shape {K gs c} (h : Toks K gs c) : ∀ kt ∈ Green.toksL gs, TokenShape kt.1 kt.2 := by
    replace h := h.2
    induction gs with
    | nil => simp [Green.toksL]
    | cons g gs ih =>
      obtain ⟨k, t, rfl, hs, _⟩ := h g (by simp)
      intro kt hk
      simp only [Green.toksL, Green.toks, List.cons_append, List.nil_append, List.mem_cons] at hk
      rcases hk with rfl | hk
      · exact hs
      · exact ih (fun g hg => h g (by simp [hg])) kt hk

theorem prefix_eq_of_append_singleton {a b : List α} {x : α} (h1 : a <+: b) (h2 : b ++ [x] = a) : False := by
  have := h1.length_le
  have := congrArg List.length h2
  simp at this; omega

/-- If nothing was recorded, no error token was produced. -/
def invSilent : PInv where
  C _ := True
  R s gs s' := s.errs <+: s'.errs ∧ (s'.errs = s.errs → ∀ kt ∈ Green.toksL gs, kt.1 ≠ .ERROR)
  F s _ s' := s.errs <+: s'.errs
  C_suf _ := trivial
  R_nil s := ⟨List.prefix_refl _, by simp [Green.toksL]⟩
  R_trans {s s1 s2 a b} _ _ h1 h2 := by
    refine ⟨h1.1.trans h2.1, fun he kt hk => ?_⟩
    have e1 : s1.errs = s.errs := by
      have l1 := h1.1.length_le
      have l2 := h2.1.length_le
      rw [he] at l2
      exact (h1.1.eq_of_length (by omega)).symm
    rw [invShape.toksL_append] at hk
    rcases List.mem_append.mp hk with h | h
    · exact h1.2 e1 kt h
    · exact h2.2 (by rw [he, e1]) kt h
  R_F _ _ h1 h2 := h1.1.trans h2
  F_ctx _ h := h
  F_stamp _ h := h
  F_move _ _ h he := by rw [he]; exact h
  F_drop _ h := ⟨h, by simp [Green.toksL]⟩
  F_record _ h := ⟨h.trans (List.prefix_append _ _), by simp [Green.toksL]⟩
  R_wrap _ h := by
    refine ⟨h.1, fun he kt hk => h.2 he kt ?_⟩
    rw [invShape.toksL_append] at hk ⊢
    simpa [Green.toksL, Green.toks] using hk
  R_tok hk _ h := ⟨by rw [h.errs]; exact List.prefix_refl _, fun _ => by simpa [Green.toksL, Green.toks] using hk⟩
  R_val _ hk h := ⟨by rw [h.errs]; exact List.prefix_refl _, fun _ => by
    simp only [Green.toksL, Green.toks, List.append_nil, List.mem_singleton, forall_eq]
    rcases hk with rfl | rfl | rfl <;> simp⟩
  F_lex h _ := by rw [h.errs]; exact List.prefix_refl _
  R_err {s s2 s4 e c0 d ets} _ _ hF ha _ _ _ := by
    have h4 : s4.errs = s2.errs := ha.errs
    have hp : s.errs <+: (s4.record e).errs := by
      rw [St.record, h4]; exact List.IsPrefix.trans hF (List.prefix_append _ _)
    refine ⟨hp, fun he => ?_⟩
    exfalso
    have hF : s.errs <+: s2.errs := hF
    have l1 := hF.length_le
    have := congrArg List.length he
    simp [St.record, h4] at this; omega

end Verif

namespace Verif
open P Spec

/-! ### Where the trailing loop stops -/

theorem alt2_fail {p q : P α} {Q : α → Text → Prop} {dbg : Bool} {s s' : St} {e : Err}
    (hp : Lex dbg s.rest.length Q p) (h : alt2 p q s = .fail e s') :
    (∃ e1 s1, p s = .fail e1 s1) ∧ q s = .fail e s' := by
  have l := hp s (Nat.le_refl _)
  unfold P.alt2 at h
  cases hps : p s <;> simp only [hps, LexOut] at h l
  · cases h
  · obtain ⟨c, ha, _⟩ := l
    rw [ha.resetTo] at h
    exact ⟨⟨_, _, rfl⟩, h⟩
  all_goals cases h

theorem takeWhile1_fail_head {f : Char → Bool} {s s' : St} {e : Err} {c : Char} {cs : Text}
    (h : takeWhile1 f s = .fail e s') (hr : s.rest = c :: cs) : f c = false := by
  unfold P.takeWhile1 at h
  rw [hr] at h
  cases hc : f c <;> simp [hc] at h ⊢

theorem rootTail_fail {dbg : Bool} {s s' : St} {e : Err} (h : rootTail dbg s = .fail e s') :
    s.rest = [] ∨ ['\x0C'] <+: s.rest ∨ ∃ b, s.rest = '"' :: b ∧ ¬ Readable b := by
  cases hr : s.rest with
  | nil => exact .inl rfl
  | cons c cs =>
  right
  replace h : alt2 ws (alt2 lineComment (alt2 (blockComment dbg) (errorToken true))) s = .fail e s' := h
  obtain ⟨⟨e1, s1, h1⟩, hb⟩ := alt2_fail (dbg := dbg) lex_ws h
  obtain ⟨-, hc⟩ := alt2_fail (dbg := dbg) lex_lineComment hb
  obtain ⟨-, hd⟩ := alt2_fail (dbg := dbg) lex_blockComment hc
  clear h hb hc
  have hws := takeWhile1_fail_head (map_fail h1) hr
  obtain ⟨sx, hany, ha⟩ := any_cons hr
  unfold errorToken tokP at hd
  replace hd := bind_fail (map_fail hd)
  rcases hd with h | ⟨c', s2, h2, h⟩
  · simp [P.peek, hany] at h
  have hs2 : s2 = s ∧ c' = c := by
    simp only [P.peek, hany] at h2
    cases h2; exact ⟨ha.resetTo, rfl⟩
  obtain ⟨rfl, rfl⟩ := hs2
  split at h
  · rename_i hc
    simp only [beq_iff_eq] at hc; subst hc
    have hpre : ['$'] <+: s2.rest := ⟨cs, by simp [hr]⟩
    simp [P.take, P.bind, lit_ok hpre, P.takeWhile0] at h
  · split at h
    · rename_i hc
      simp only [if_true, P.alt, P.alt2, P.lit, hr] at h
      simp only [Bool.or_eq_true, beq_iff_eq] at hc
      rcases hc with rfl | rfl <;> simp [St.resetTo, hr] at h
    · split at h
      · rename_i hc
        simp only [beq_iff_eq] at hc; subst hc
        exact .inr ⟨cs, rfl, fun hb => stringImpl_complete hr hb h⟩
      · split at h
        · rename_i hid
          have := takeWhile1_fail_head h hr
          simp [hid] at this
        · rename_i hp _ _
          have := takeWhile1_fail_head h hr
          left
          simp only [Bool.or_eq_true, beq_iff_eq, not_or] at hp
          simp [isMultispace] at hws
          simp [isAsciiWs, hp, hws] at this
          exact ⟨cs, by rw [this]; rfl⟩

theorem not_brokenEscape {t : Text} (h : '\\' ∉ t) : ¬ BrokenEscape t := by
  rintro ⟨a, x, b, rfl, _⟩; simp at h

/-! ### Evaluating concrete parses -/

/-- What follows each quote of a text. -/
def quoteTails : Text → List Text
  | [] => []
  | c :: t => if c = '"' then t :: quoteTails t else quoteTails t

theorem mem_quoteTails {t b : Text} : ∀ {a}, t = a ++ '"' :: b → b ∈ quoteTails t := by
  induction t with
  | nil => intro a h; simp at h
  | cons c t ih =>
    intro a h
    cases a with
    | nil => simp at h; simp [quoteTails, h]
    | cons x a =>
      simp at h
      have := ih h.2
      unfold quoteTails; split <;> simp [this]

/-- Test the outcome of a parse. -/
def ParseOut.test (p : Green → List Err → Text → Bool) : ParseOut → Bool
  | .tree t e d => p t e d
  | _ => false

theorem ParseOut.of_test {o : ParseOut} {p : Green → List Err → Text → Bool} (h : o.test p = true) :
    ∃ t e d, o = .tree t e d ∧ p t e d = true := by
  cases o with
  | tree t e d => exact ⟨t, e, d, rfl, h⟩
  | panic => simp [ParseOut.test] at h
  | oof => simp [ParseOut.test] at h

end Verif

namespace Verif
open P Spec

theorem nodesL_append (a b : List Green) : Green.nodesL (a ++ b) = Green.nodesL a ++ Green.nodesL b := by
  induction a with
  | nil => simp [Green.nodesL]
  | cons g a ih => simp [Green.nodesL, ih]

theorem Toks.nodesL {K gs c} (h : Toks K gs c) : Green.nodesL gs = [] := by
  replace h := h.2
  induction gs with
  | nil => rfl
  | cons g gs ih =>
    obtain ⟨k, t, rfl, _⟩ := h g (by simp)
    simp [Green.nodesL, Green.nodes, ih (fun g hg => h g (by simp [hg]))]

/-- Value type nodes hold exactly one type token. -/
def invVal : PInv where
  C _ := True
  R _ gs _ := ∀ n ∈ Green.nodesL gs, n.1 = .VAL_TYPE → ∃ k t, n.2 = [.tok k t] ∧ TokenShape k t ∧
    (k = .NUM_TYPE ∨ k = .VEC_TYPE ∨ k = .REF_TYPE)
  F _ _ _ := True
  C_suf _ := trivial
  R_nil _ := by simp [Green.nodesL]
  R_trans _ _ h1 h2 := by
    intro n hn
    rw [nodesL_append] at hn
    rcases List.mem_append.mp hn with h | h
    · exact h1 n h
    · exact h2 n h
  R_F _ _ _ _ := trivial
  F_ctx _ _ := trivial
  F_stamp _ _ := trivial
  F_move _ _ _ _ := trivial
  F_drop _ _ := by simp [Green.nodesL]
  F_record _ _ := by simp [Green.nodesL]
  R_wrap {s s' k a b} hk h := by
    intro n hn hv
    rw [nodesL_append] at hn h
    simp only [Green.nodesL, Green.nodes, List.append_nil, List.mem_append, List.mem_cons] at hn
    rcases hn with hn | rfl | hn
    · exact h n (by simp [hn]) hv
    · exact absurd hv hk
    · exact h n (by simp [hn]) hv
  R_tok _ _ _ := by simp [Green.nodesL, Green.nodes]
  R_val {s s' k c} hs hk _ := by
    intro n hn hv
    simp only [Green.nodesL, Green.nodes, List.append_nil, List.mem_singleton] at hn
    subst hn
    exact ⟨k, c, rfl, hs, hk⟩
  F_lex _ _ := trivial
  R_err _ _ _ _ ht _ _ := by rw [ht.nodesL]; simp

end Verif
