import Verif.Lemmas.TokenLex
/-!
Helper lemmas: identifiers, strings, numbers and error tokens.
-/
namespace Verif
open P Spec

variable {dbg : Bool} {n : Nat}

/-- Kinds of tokens other than error tokens. -/
def NotErr (k : Kind) : Prop := k ≠ .ERROR

/-- Any kind. -/
def AnyKind (_ : Kind) : Prop := True

theorem Toks.notErr {gs c} (h : Toks IsTriv gs c) : Toks NotErr gs c :=
  h.mono fun k hk => by rcases hk with rfl | rfl | rfl <;> simp [NotErr]

theorem Toks.any {K gs c} (h : Toks K gs c) : Toks AnyKind gs c := h.mono fun _ _ => trivial

/-- A lexical parser yielding one non-error token of the specified shape, consuming something. -/
abbrev LexTok (dbg : Bool) (n : Nat) (p : G) : Prop :=
  Lex dbg n (fun gs c => Toks NotErr gs c ∧ c ≠ []) p

theorem lexTok_of {k : Kind} {Q : Text → Text → Prop} {p : P Text} (hp : Lex dbg n Q p)
    (h : ∀ a c, Q a c → a = c ∧ TokenShape k c ∧ c ≠ []) (hk : k ≠ .ERROR) : LexTok dbg n (tokP k p) :=
  lex_map hp fun a c hq => by
    obtain ⟨rfl, hs, hne⟩ := h a c hq
    exact ⟨Toks.one hs hk, hne⟩

theorem lexTok_lParen : LexTok dbg n lParen :=
  lex_context _ (lexTok_of (lex_lit _) (fun _ _ h => ⟨by simp [h.1, h.2], h.2, by simp [h.2]⟩) (by simp))

theorem lexTok_keyword {kw : Text} (h : kw ∈ keywords) : LexTok dbg n (keyword kw) :=
  lex_context _ (lexTok_of (Q := fun a c => a = c ∧ c ∈ keywords ∧ IsWord c)
    (lex_verify lex_word fun a c h1 h2 => by
      obtain ⟨rfl, hw⟩ := h1
      simp only [beq_iff_eq] at h2
      subst h2
      exact ⟨rfl, h, hw⟩)
    (fun _ _ h => ⟨h.1, h.2.1, IsWord.ne_nil h.2.2⟩) (by simp))

theorem lexTok_ident : LexTok dbg n ident :=
  lexTok_of (lex_context _ (lex_take (Q := fun _ c => IsIdent c) (Q' := fun a c => a = c ∧ IsIdent c)
    (lex_bind (lex_lit _) fun a c h => (lex_takeWhile1 isIdChar).mono fun b d h2 =>
      ⟨d, by rw [h.2]; rfl, h2.2.1, fun x hx => (isIdChar_iff x).mp (h2.2.2 x hx)⟩)
    fun _ _ h => ⟨rfl, h⟩))
    (fun _ _ h => ⟨h.1, h.2, by obtain ⟨_, r, hr, _⟩ := h; simp [hr]⟩) (by simp)

/-! ### Strings -/

theorem lex_strEscape :
    Lex dbg n (fun _ c => (∃ x, x ≠ 'u' ∧ c = [x]) ∨
      ∃ h, (∀ x ∈ h, x ∈ hexDigits) ∧ c = 'u' :: '{' :: (h ++ ['}'])) strEscape := by
  refine lex_bind lex_any fun a c h => ?_
  subst h
  split
  · rename_i hu
    simp only [beq_iff_eq] at hu; subst hu
    refine lex_bind (lex_lit _) fun _ c1 h1 => ?_
    obtain ⟨_, rfl⟩ := h1
    refine lex_bind (lex_takeWhile0 isHex) fun _ c2 h2 => ?_
    refine lex_void (lex_lit _) fun _ c3 h3 => ?_
    obtain ⟨_, rfl⟩ := h3
    exact .inr ⟨c2, fun x hx => isHex_mem (h2.2 x hx), by simp⟩
  · rename_i hu
    exact lex_pure (.inl ⟨a, by simpa using hu, by simp⟩)

theorem any_cons {s : St} {c : Char} {cs : Text} (h : s.rest = c :: cs) :
    ∃ s1, any s = .ok c s1 ∧ Adv s [c] s1 :=
  ⟨{ s with rest := cs, pos := s.pos + c.utf8Size }, by unfold P.any; rw [h],
    ⟨by simp [h], by simp [bytes], rfl⟩⟩

theorem lex_takeEscapedF : ∀ fuel n, n < fuel →
    Lex dbg n (fun _ c => StrBody c) (takeEscapedF fuel) := by
  intro fuel
  induction fuel with
  | zero => intro n h; omega
  | succ fuel ih =>
    intro n hn s hs
    unfold takeEscapedF
    split
    · exact ⟨[], Adv.nil s, .nil⟩
    · rename_i c cs heq
      obtain ⟨s1, hany, ha⟩ : ∃ s1, any s = .ok c s1 ∧ Adv s [c] s1 :=
        any_cons heq
      have hl := ha.length
      simp at hl
      split
      · rename_i hc
        simp only [P.bind, hany]
        refine LexOut.after ha (ih s1.rest.length (by omega) s1 (Nat.le_refl _)) fun _ d hd _ => ?_
        refine .char c d ?_ hd
        simp [isStrNormal] at hc ⊢
        grind
      · split
        · rename_i hc
          simp only [beq_iff_eq] at hc; subst hc
          rw [show (bind any (fun _ => bind strEscape fun _ => takeEscapedF fuel) s) =
            (bind strEscape fun _ => takeEscapedF fuel) s1 by simp [P.bind, hany]]
          refine LexOut.after (Q := fun _ c => StrBody ('\\' :: c)) ha ?_ (fun _ d hd _ => hd)
          refine lex_bind' (n := s1.rest.length) lex_strEscape (fun _ d hd m hm => ?_) s1 (Nat.le_refl _)
          refine (ih m (by omega)).mono fun _ e he => ?_
          rcases hd with ⟨x, hx, rfl⟩ | ⟨h, hh, rfl⟩
          · exact .esc x e hx he
          · have := StrBody.uni h e hh he
            simpa using this
        · exact ⟨[], Adv.nil s, .nil⟩

theorem lex_lineEnding : Lex dbg n (fun _ _ => True) lineEnding :=
  lex_alt (by
    simp only [List.mem_cons, List.not_mem_nil, or_false, forall_eq_or_imp, forall_eq]
    exact ⟨(lex_lit _).mono fun _ _ _ => trivial, (lex_lit _).mono fun _ _ _ => trivial⟩)

theorem lex_stringImpl : Lex dbg n (fun a c => a = c ∧ IsString c) stringImpl := by
  refine lex_take (Q := fun _ c => IsString c) ?_ fun _ _ h => ⟨rfl, h⟩
  refine lex_bind (lex_lit _) fun _ c h => ?_
  obtain ⟨_, rfl⟩ := h
  refine lex_bind (Q := fun _ c => StrBody c) ?_ fun _ c h => ?_
  · intro s hs
    exact lex_takeEscapedF (s.rest.length + 1) s.rest.length (by omega) s (Nat.le_refl _)
  · refine lex_alt ?_
    simp only [List.mem_cons, List.not_mem_nil, or_false, forall_eq_or_imp, forall_eq]
    refine ⟨(lex_lit _).mono fun _ d hd => ?_, (lex_peek lex_lineEnding).mono fun _ d hd => ?_,
      lex_eof.mono fun _ d hd => ?_⟩
    · exact ⟨c, h, .inl (by simp [hd.2])⟩
    · exact ⟨c, h, .inr (by simp [hd])⟩
    · exact ⟨c, h, .inr (by simp [hd.2])⟩

/-! A failing string literal stops before a parenthesis only at a broken `\\u` escape. -/

theorem BrokenEscape.append {a t : Text} (h : BrokenEscape t) : BrokenEscape (a ++ t) := by
  obtain ⟨x, h, b, rfl, hh⟩ := h
  exact ⟨a ++ x, h, b, by simp, hh⟩

/-- The rest starts with an opening parenthesis. -/
def AtParen (t : Text) : Prop := ['('] <+: t

theorem lit_fail_state {t : Text} {s s' : St} {e : Err} (h : lit t s = .fail e s') : s' = s := by
  unfold P.lit at h; split at h <;> simp_all

theorem bind_fail {p : P α} {f : α → P β} {s s' : St} {e : Err} (h : bind p f s = .fail e s') :
    p s = .fail e s' ∨ ∃ a s1, p s = .ok a s1 ∧ f a s1 = .fail e s' := by
  unfold P.bind at h
  cases hp : p s <;> simp only [hp] at h
  · exact .inr ⟨_, _, rfl, h⟩
  · cases h; exact .inl rfl
  · cases h
  · cases h

theorem map_fail {p : P α} {f : α → β} {s s' : St} {e : Err} (h : map f p s = .fail e s') :
    p s = .fail e s' := by
  rcases bind_fail h with h | ⟨a, s1, _, h⟩
  · exact h
  · simp [P.pure] at h

theorem take_fail {p : P α} {s s' : St} {e : Err} (h : take p s = .fail e s') : p s = .fail e s' := by
  unfold P.take at h
  cases hp : p s <;> simp_all

theorem any_fail {s s' : St} {e : Err} (h : any s = .fail e s') : s.rest = [] ∧ s' = s := by
  unfold P.any at h; split at h <;> simp_all

theorem any_ok {s s' : St} {c : Char} (h : any s = .ok c s') : Adv s [c] s' := by
  have := lex_any (dbg := false) (n := _) s (Nat.le_refl _)
  rw [h] at this
  obtain ⟨_, h1, rfl⟩ := this; exact h1

theorem lit_adv {t a : Text} {s s' : St} (h : lit t s = .ok a s') : Adv s t s' := by
  have := lex_lit (dbg := false) (n := _) t s (Nat.le_refl _)
  rw [h] at this
  obtain ⟨_, h1, _, rfl⟩ := this; exact h1

theorem strEscape_fail {s s' : St} {e : Err} (h : strEscape s = .fail e s') (hp : AtParen s'.rest) :
    ∃ h b, s.rest = 'u' :: (h ++ '(' :: b) ∧ (h = [] ∨ ∃ hs, h = '{' :: hs ∧ ∀ c ∈ hs, c ∈ hexDigits) := by
  obtain ⟨b, hb⟩ := hp
  unfold strEscape at h
  rcases bind_fail h with h | ⟨c, s1, h1, h⟩
  · obtain ⟨h1, rfl⟩ := any_fail h; simp [h1] at hb
  have h1 := (any_ok h1).rest
  split at h
  · rename_i hu
    simp only [beq_iff_eq] at hu; subst hu
    rcases bind_fail h with h | ⟨_, s2, h2, h⟩
    · have := lit_fail_state h; subst this
      exact ⟨[], b, by simp [h1, ← hb], .inl rfl⟩
    have h2 := (lit_adv h2).rest
    rcases bind_fail h with h | ⟨_, s3, h3, h⟩
    · simp [P.takeWhile0] at h
    have l3 := lex_takeWhile0 (dbg := false) (n := _) isHex s2 (Nat.le_refl _)
    rw [h3] at l3
    obtain ⟨c3, ha3, _, hx⟩ := l3
    have := lit_fail_state (map_fail h); subst this
    refine ⟨'{' :: c3, b, ?_, .inr ⟨c3, rfl, fun c hc => isHex_mem (hx c hc)⟩⟩
    rw [h1, h2, ha3.rest, ← hb]; simp
  · simp [P.pure] at h

theorem takeEscapedF_fail : ∀ fuel (s s' : St) (e : Err), takeEscapedF fuel s = .fail e s' →
    AtParen s'.rest → BrokenEscape s.rest := by
  intro fuel
  induction fuel with
  | zero => intro s s' e h; simp [takeEscapedF] at h
  | succ fuel ih =>
    intro s s' e h hp
    unfold takeEscapedF at h
    split at h
    · simp at h
    · rename_i c cs heq
      obtain ⟨s1, hany, ha⟩ := any_cons heq
      have h1 := ha.rest
      split at h
      · simp only [P.bind, hany] at h
        rw [h1]; exact BrokenEscape.append (ih _ _ _ h hp)
      · split at h
        · rename_i hc
          simp only [beq_iff_eq] at hc; subst hc
          simp only [P.bind, hany] at h
          cases he : strEscape s1 with
          | fail e2 s2 =>
            simp only [he] at h
            cases h
            obtain ⟨hh, b, hb, hor⟩ := strEscape_fail he hp
            exact ⟨[], hh, b, by rw [h1, hb]; rfl, hor⟩
          | panic => simp [he] at h
          | oof => simp [he] at h
          | ok a2 s2 =>
            simp only [he] at h
            have l2 := lex_strEscape (dbg := false) (n := s1.rest.length) s1 (Nat.le_refl _)
            rw [he] at l2
            obtain ⟨c2, ha2, _⟩ := l2
            rw [h1, ha2.rest]
            exact BrokenEscape.append (BrokenEscape.append (ih _ _ _ h hp))
        · simp at h

/-- Where escaping stops: at the end, a quote or a line break. -/
theorem takeEscapedF_stop : ∀ fuel (s s' : St), takeEscapedF fuel s = .ok () s' → ¬ AtParen s'.rest := by
  intro fuel
  induction fuel with
  | zero => intro s s' h; simp [takeEscapedF] at h
  | succ fuel ih =>
    intro s s' h
    unfold takeEscapedF at h
    split at h
    · rename_i heq
      cases h; rw [heq]; simp [AtParen]
    · rename_i c cs heq
      obtain ⟨s1, hany, ha⟩ := any_cons heq
      split at h
      · simp only [P.bind, hany] at h
        exact ih _ _ h
      · rename_i hn
        split at h
        · simp only [P.bind, hany] at h
          cases he : strEscape s1 <;> simp only [he] at h
          · exact ih _ _ h
          all_goals simp at h
        · cases h
          rw [heq]
          rintro ⟨x, hx⟩
          simp at hx
          rw [← hx.1] at hn
          simp [isStrNormal] at hn

theorem stringImpl_fail {s s' : St} {e : Err} (h : stringImpl s = .fail e s') (hp : AtParen s'.rest)
    (hq : ¬ AtParen s.rest) : BrokenEscape s.rest := by
  unfold stringImpl at h
  rcases bind_fail (take_fail h) with h | ⟨_, s1, h1, h⟩
  · have := lit_fail_state h; subst this
    exact absurd hp hq
  rw [(lit_adv h1).rest]
  rcases bind_fail h with h | ⟨_, s2, h2, h⟩
  · exact BrokenEscape.append (takeEscapedF_fail _ _ _ _ h hp)
  have hstop := takeEscapedF_stop _ _ _ h2
  -- the last alternative is `eof`, which does not move
  simp only [P.alt, P.alt2] at h
  cases q1 : lit ['"'] s2 <;> simp only [q1] at h
  · cases h
  · have := lit_fail_state q1; subst this
    rw [St.resetTo_self] at h
    rename_i x
    have lp := lex_peek (dbg := false) (n := _) lex_lineEnding x (Nat.le_refl _)
    cases q2 : peek lineEnding x <;> simp only [q2] at h lp
    · cases h
    · obtain ⟨_, hb, _⟩ := lp
      rw [hb.resetTo] at h
      unfold P.eof at h
      split at h
      · cases h
      · cases h; exact absurd hp hstop
    · cases h
    · cases h
  · cases h
  · cases h

theorem mem_isHex {c : Char} (h : c ∈ hexDigits) : isHex c = true := by
  revert c; decide +kernel

theorem takeEscapedF_complete {body : Text} (hb : StrBody body) : ∀ {fuel : Nat} {s : St} {r : Text},
    s.rest = body ++ r → s.rest.length < fuel →
    (r = [] ∨ ['"'] <+: r ∨ ['\n'] <+: r ∨ ['\r', '\n'] <+: r) →
    ∃ s', takeEscapedF fuel s = .ok () s' ∧ s'.rest = r := by
  induction hb with
  | nil =>
    intro fuel s r hs hf hr
    obtain ⟨fuel, rfl⟩ : ∃ k, fuel = k + 1 := ⟨fuel - 1, by omega⟩
    rw [takeEscapedF]; dsimp only
    simp only [List.nil_append] at hs
    rcases hr with rfl | ⟨x, rfl⟩ | ⟨x, rfl⟩ | ⟨x, rfl⟩
    · exact ⟨s, by rw [hs], hs⟩
    all_goals
      simp only [List.cons_append, List.nil_append] at hs
      refine ⟨s, ?_, by simp [hs]⟩
      rw [hs]
      simp [isStrNormal]
  | char c b hc _ ih =>
    intro fuel s r hs hf hr
    obtain ⟨fuel, rfl⟩ : ∃ k, fuel = k + 1 := ⟨fuel - 1, by omega⟩
    obtain ⟨s1, h1, ha⟩ := any_cons (s := s) hs
    have hr1 : s1.rest = b ++ r := by have := ha.rest; rw [hs] at this; simpa using this.symm
    obtain ⟨s', h2, h3⟩ := ih (fuel := fuel) hr1 (by rw [hs] at hf; rw [hr1]; simp at hf ⊢; omega) hr
    refine ⟨s', ?_, h3⟩
    rw [takeEscapedF]; dsimp only
    simp only [List.mem_cons, List.not_mem_nil, or_false, not_or] at hc
    have hn : isStrNormal c = true := by simp [isStrNormal, hc]
    simp only [hs, List.cons_append]
    rw [if_pos hn]
    simp only [P.bind, h1, h2]
  | esc c b hc _ ih =>
    intro fuel s r hs hf hr
    obtain ⟨fuel, rfl⟩ : ∃ k, fuel = k + 1 := ⟨fuel - 1, by omega⟩
    obtain ⟨s1, h1, ha⟩ := any_cons (s := s) hs
    have hr1 : s1.rest = c :: (b ++ r) := by have := ha.rest; rw [hs] at this; simpa using this.symm
    obtain ⟨s2, h4, ha2⟩ := any_cons (s := s1) hr1
    have hr2 : s2.rest = b ++ r := by have := ha2.rest; rw [hr1] at this; simpa using this.symm
    obtain ⟨s', h2, h3⟩ := ih (fuel := fuel) hr2 (by rw [hs] at hf; rw [hr2]; simp at hf ⊢; omega) hr
    refine ⟨s', ?_, h3⟩
    rw [takeEscapedF]; dsimp only
    simp only [hs, List.cons_append]
    rw [if_neg (by simp [isStrNormal]), if_pos (by simp)]
    simp only [P.bind, h1, strEscape, h4]
    rw [if_neg (by simpa using hc)]
    simp only [P.pure, h2]
  | uni h b hh _ ih =>
    intro fuel s r hs hf hr
    obtain ⟨fuel, rfl⟩ : ∃ k, fuel = k + 1 := ⟨fuel - 1, by omega⟩
    obtain ⟨s1, h1, ha⟩ := any_cons (s := s) hs
    have hr1 : s1.rest = 'u' :: ('{' :: (h ++ '}' :: b) ++ r) := by
      have := ha.rest; rw [hs] at this; simpa using this.symm
    obtain ⟨s2, h4, ha2⟩ := any_cons (s := s1) hr1
    have hr2 : s2.rest = '{' :: (h ++ '}' :: (b ++ r)) := by
      have := ha2.rest; rw [hr1] at this; simpa using this.symm
    have htw := takeWhile_append_stop (f := isHex) (h := h) (c := '}') (r := b ++ r)
      (fun x hx => mem_isHex (hh x hx)) (by decide)
    obtain ⟨s5, h5, hr5⟩ : ∃ s5, strEscape s1 = .ok () s5 ∧ s5.rest = b ++ r := by
      have h6 := lit_ok (s := s2) (t := ['{']) ⟨_, by rw [hr2]; rfl⟩
      have h7 := lit_ok (s := ⟨'}' :: (b ++ r), s2.pos + bytes ['{'] + bytes h, s2.errs⟩) (t := ['}'])
        ⟨_, rfl⟩
      refine ⟨⟨b ++ r, s2.pos + bytes ['{'] + bytes h + bytes ['}'], s2.errs⟩, ?_, rfl⟩
      simp only [strEscape, P.bind, h4, beq_self_eq_true, if_true, h6]
      simp only [P.takeWhile0, hr2, List.length_cons, List.length_nil, List.drop_succ_cons, List.drop_zero,
        htw.1, htw.2, P.void, P.map, P.bind, P.pure, Nat.zero_add]
      rw [h7]; rfl
    obtain ⟨s', h2, h3⟩ := ih (fuel := fuel) hr5 (by rw [hs] at hf; rw [hr5]; simp at hf ⊢; omega) hr
    refine ⟨s', ?_, h3⟩
    rw [takeEscapedF]; dsimp only
    simp only [hs, List.cons_append]
    rw [if_neg (by simp [isStrNormal]), if_pos (by simp)]
    simp only [P.bind, h1, h5, h2]

/-- A readable string is read. -/
theorem stringImpl_complete {s s' : St} {e : Err} {b : Text} (hs : s.rest = '"' :: b) (hb : Readable b) :
    stringImpl s ≠ .fail e s' := by
  intro h
  obtain ⟨body, r, rfl, hbody, hr⟩ := hb
  unfold stringImpl at h
  rcases bind_fail (take_fail h) with h | ⟨_, s1, h1, h⟩
  · rw [lit_ok ⟨body ++ r, by simp [hs]⟩] at h; cases h
  have hr1 : s1.rest = body ++ r := by have := (lit_adv h1).rest; rw [hs] at this; simpa using this.symm
  rcases bind_fail h with h | ⟨_, s2, h2, h⟩
  · obtain ⟨s'', h3, _⟩ := takeEscapedF_complete hbody hr1 (Nat.lt_succ_self _) hr
    rw [h3] at h; cases h
  · obtain ⟨s'', h3, h4⟩ := takeEscapedF_complete hbody hr1 (Nat.lt_succ_self _) hr
    rw [h3] at h2; cases h2
    rcases hr with rfl | ⟨x, rfl⟩ | ⟨x, rfl⟩ | ⟨x, rfl⟩ <;>
      simp [P.alt, P.alt2, P.lit, h4, P.peek, lineEnding, St.resetTo, P.eof] at h

theorem IsString.ne_nil {t : Text} (h : IsString t) : t ≠ [] := by
  obtain ⟨b, _, rfl | rfl⟩ := h <;> simp

theorem lexTok_string : LexTok dbg n string :=
  lexTok_of (lex_context _ lex_stringImpl) (fun _ _ h => ⟨h.1, h.2, IsString.ne_nil h.2⟩) (by simp)

/-! ### Numbers -/

theorem IsRun.ne_nil {ds t} (h : IsRun ds t) : t ≠ [] := by obtain ⟨h, r, rfl, _⟩ := h; simp

theorem lex_run {f : Char → Bool} {ds : List Char} (hf : ∀ c, f c = true → c ∈ ds) :
    Lex dbg n (fun a c => a = c ∧ IsRun ds c)
      (take (bind (oneOf f) fun _ => takeWhile0 fun c => f c || c == '_')) :=
  lex_take (Q := fun _ c => IsRun ds c)
    (lex_bind lex_oneOf fun a c h => (lex_takeWhile0 _).mono fun b d h2 => by
      obtain ⟨rfl, hl⟩ := h
      refine ⟨a, d, rfl, hf a hl, fun x hx => ?_⟩
      have := h2.2 x hx
      simp at this
      exact this.imp (hf x) id)
    fun _ _ h => ⟨rfl, h⟩

theorem lex_unsignedHex : Lex dbg n (fun a c => a = c ∧ IsRun hexDigits c) unsignedHex :=
  lex_run fun _ => isHex_mem

theorem lex_unsignedDec : Lex dbg n (fun a c => a = c ∧ IsRun digits c) unsignedDec :=
  lex_run fun _ => isDigit_mem

theorem IsRun.isDigits {ds t} (h : IsRun ds t) (h2 : t.getLast? ≠ some '_') : IsDigits ds t := by
  obtain ⟨h, r, h1, h3, h4⟩ := h; exact ⟨h, r, h1, h3, h4, h2⟩

theorem lex_unsignedIntImpl : Lex dbg n (fun a c => a = c ∧ IsUnsigned c ∧ c ≠ []) unsignedIntImpl := by
  refine lex_verify (Q := fun a c => a = c ∧ (IsRun digits c ∨ ∃ r, c = '0' :: 'x' :: r ∧ IsRun hexDigits r))
    ?_ fun a c h1 h2 => ?_
  · refine lex_take (Q := fun _ c => (IsRun digits c ∨ ∃ r, c = '0' :: 'x' :: r ∧ IsRun hexDigits r))
      ?_ fun _ _ h => ⟨rfl, h⟩
    refine lex_bind (Q := fun o c => o = none ∧ c = [] ∨ o.isSome ∧ c = ['0', 'x'])
      (lex_opt (lex_lit _) (fun _ _ h => by simp [h.2]) (by simp)) fun o c h => ?_
    rcases h with ⟨rfl, rfl⟩ | ⟨ho, rfl⟩
    · exact lex_unsignedDec.mono fun _ d hd => .inl hd.2
    · obtain ⟨x, rfl⟩ := Option.isSome_iff_exists.mp ho
      exact lex_unsignedHex.mono fun _ d hd => .inr ⟨d, rfl, hd.2⟩
  · obtain ⟨rfl, h | ⟨r, rfl, h⟩⟩ := h1
    · exact ⟨rfl, .inl (IsRun.isDigits h (by simpa using h2)), IsRun.ne_nil h⟩
    · refine ⟨rfl, .inr ⟨r, rfl, IsRun.isDigits h ?_⟩, by simp⟩
      have hne := IsRun.ne_nil h
      obtain ⟨y, r', rfl⟩ := List.exists_cons_of_ne_nil hne
      simpa using h2

theorem lexTok_unsignedInt : LexTok dbg n unsignedInt :=
  lexTok_of lex_unsignedIntImpl (fun _ _ h => ⟨h.1, h.2.1, h.2.2⟩) (by simp)

theorem lex_optSign : Lex dbg n (fun _ c => IsSign c) optSign :=
  lex_void (Q := fun _ c => IsSign c)
    (lex_opt lex_oneOf (fun a c h => by
      obtain ⟨rfl, h⟩ := h; simp at h; rcases h with rfl | rfl <;> simp [IsSign])
      (by simp [IsSign])) fun _ _ h => h

theorem lex_intImpl : Lex dbg n (fun a c => a = c ∧ IsInt c ∧ c ≠ []) intImpl :=
  lex_take (Q := fun _ c => IsInt c ∧ c ≠ [])
    (lex_bind lex_optSign fun _ c h => lex_bind lex_unsignedIntImpl fun _ d h2 =>
      (lex_peek lex_noneOf).mono fun _ e he => by
        subst he
        refine ⟨?_, by simp [h2.2.2]⟩
        rcases h with rfl | rfl | rfl
        · exact .inl (by simpa using h2.2.1)
        · exact .inr ⟨d, by simp, h2.2.1⟩
        · exact .inr ⟨d, by simp, h2.2.1⟩)
    fun _ _ h => ⟨rfl, h⟩

theorem lexTok_int : LexTok dbg n int :=
  lexTok_of lex_intImpl (fun _ _ h => ⟨h.1, h.2.1, h.2.2⟩) (by simp)

theorem floatUnderscoresOk_spec {hl : Bool} {t : Text} (h : floatUnderscoresOk hl t = true) (a b : Text)
    (ht : t = a ++ '_' :: b) : ∃ d r, b = d :: r ∧ d ∈ hexDigits := by
  fun_induction floatUnderscoresOk hl t generalizing a with
  | case1 => simp at ht
  | case2 => simp at h
  | case3 c hc d ds ih =>
    simp only [beq_iff_eq] at hc; subst hc
    simp only [Bool.and_eq_true] at h
    have hd : d ∈ hexDigits := by
      have h1 := h.1
      split at h1
      · exact isHex_mem h1
      · exact isHex_mem (isDigit_isHex h1)
    match a, ht with
    | [], ht => simp at ht; exact ⟨d, ds, ht.symm, hd⟩
    | [x], ht =>
      simp at ht
      exfalso
      rw [ht.2.1] at hd
      revert hd; decide
    | x :: y :: a, ht =>
      simp at ht
      exact ih h.2 a ht.2.2
  | case4 c cs hc ih =>
    match a, ht with
    | [], ht => simp at ht; simp [ht.1] at hc
    | x :: a, ht => simp at ht; exact ih h a ht.2

theorem lex_frac {f : P Text} {ds : List Char} (hf : Lex dbg n (fun a c => a = c ∧ IsRun ds c) f) :
    Lex dbg n (fun _ c => Opt (fun f => ∃ r, f = '.' :: r ∧ Opt (IsRun ds) r) c)
      (opt (bind (lit ['.']) fun _ => opt f)) :=
  lex_opt (Q := fun _ c => ∃ r, c = '.' :: r ∧ Opt (IsRun ds) r)
    (lex_bind (lex_lit _) fun _ c h => by
      obtain ⟨_, rfl⟩ := h
      exact lex_opt hf (fun _ d hd => ⟨d, rfl, .inr hd.2⟩) ⟨[], rfl, .inl rfl⟩)
    (fun _ _ h => .inr h) (.inl rfl)

theorem lex_expo {f : Char → Bool} {e : List Char} (hf : ∀ c, f c = true → c ∈ e) :
    Lex dbg n (fun _ c => Opt (fun x => ∃ c g r, x = c :: (g ++ r) ∧ c ∈ e ∧ IsSign g ∧ IsRun digits r) c)
      (void (opt (bind (oneOf f) fun _ => bind optSign fun _ => unsignedDec))) :=
  lex_void (lex_opt (Q := fun _ c => ∃ x g r, c = x :: (g ++ r) ∧ x ∈ e ∧ IsSign g ∧ IsRun digits r)
    (lex_bind lex_oneOf fun a c h => lex_bind lex_optSign fun _ g hg => lex_unsignedDec.mono fun _ r hr => by
      obtain ⟨rfl, ha⟩ := h
      exact ⟨a, g, r, rfl, hf a ha, hg, hr.2⟩)
    (fun _ _ h => .inr h) (.inl rfl)) fun _ _ h => h

theorem lex_floatImpl : Lex dbg n (fun a c => a = c ∧ IsFloat c) floatImpl := by
  refine lex_verify (Q := fun a c => a = c ∧ ∃ g m, c = g ++ m ∧ IsSign g ∧
    (m = t!"inf" ∨ m = t!"nan" ∨ (∃ r, m = t!"nan:0x" ++ r ∧ IsRun hexDigits r) ∨
      IsFloatNum digits ['e', 'E'] m ∨
      ∃ r, m = '0' :: 'x' :: r ∧ IsFloatNum hexDigits ['p', 'P'] r)) ?_ fun a c h1 h2 => ?_
  · refine lex_take (Q := fun _ c => ∃ g m, c = g ++ m ∧ IsSign g ∧
    (m = t!"inf" ∨ m = t!"nan" ∨ (∃ r, m = t!"nan:0x" ++ r ∧ IsRun hexDigits r) ∨
      IsFloatNum digits ['e', 'E'] m ∨
      ∃ r, m = '0' :: 'x' :: r ∧ IsFloatNum hexDigits ['p', 'P'] r)) ?_ fun _ _ h => ⟨rfl, h⟩
    refine lex_bind lex_optSign fun _ g hg => ?_
    refine lex_bind (Q := fun _ m => (m = t!"inf" ∨ m = t!"nan" ∨ (∃ r, m = t!"nan:0x" ++ r ∧ IsRun hexDigits r) ∨
      IsFloatNum digits ['e', 'E'] m ∨
      ∃ r, m = '0' :: 'x' :: r ∧ IsFloatNum hexDigits ['p', 'P'] r)) ?_ fun _ m hm =>
        (lex_peek lex_noneOf).mono fun _ e he => ⟨g, m, by simp [he], hg, hm⟩
    refine lex_alt ?_
    simp only [List.mem_cons, List.not_mem_nil, or_false, forall_eq_or_imp, forall_eq]
    refine ⟨?_, ?_, ?_, ?_⟩
    · refine lex_bind (lex_lit _) fun _ c h => ?_
      obtain ⟨_, rfl⟩ := h
      refine lex_bind lex_unsignedHex fun _ i hi => ?_
      refine lex_bind (lex_frac lex_unsignedHex) fun _ f hf => ?_
      refine (lex_expo (e := ['p', 'P']) (by simp)).mono fun _ x hx => ?_
      exact .inr (.inr (.inr (.inr ⟨i ++ f ++ x, by simp, i, f, x, rfl, hi.2, hf, hx⟩)))
    · refine lex_bind lex_unsignedDec fun _ i hi => ?_
      refine lex_bind (lex_frac lex_unsignedDec) fun _ f hf => ?_
      refine (lex_expo (e := ['e', 'E']) (by simp)).mono fun _ x hx => ?_
      exact .inr (.inr (.inr (.inl ⟨i, f, x, by simp, hi.2, hf, hx⟩)))
    · exact lex_void (lex_lit _) fun _ _ h => .inl h.2
    · refine lex_bind (lex_lit _) fun _ c h => ?_
      obtain ⟨_, rfl⟩ := h
      refine lex_void (Q := fun _ c => Opt (fun d => ∃ r, d = [':', '0', 'x'] ++ r ∧ IsRun hexDigits r) c)
        (lex_opt (Q := fun _ d => ∃ r, d = [':', '0', 'x'] ++ r ∧ IsRun hexDigits r)
          (lex_bind (lex_lit _) fun _ d hd => lex_unsignedHex.mono fun _ r hr => ⟨r, by rw [hd.2], hr.2⟩)
          (fun _ _ h => .inr h) (.inl rfl)) fun _ d hd => ?_
      rcases hd with rfl | ⟨r, rfl, hr⟩
      · exact .inr (.inl rfl)
      · exact .inr (.inr (.inl ⟨r, rfl, hr⟩))
  · obtain ⟨rfl, h⟩ := h1
    exact ⟨rfl, h, floatUnderscoresOk_spec h2⟩

theorem IsFloat.ne_nil {t : Text} (h : IsFloat t) : t ≠ [] := by
  obtain ⟨⟨g, m, rfl, _, rfl | rfl | ⟨r, rfl, _⟩ | ⟨i, f, x, rfl, hi, _⟩ | ⟨r, rfl, _⟩⟩, _⟩ := h
  all_goals simp
  intro _ h; exact absurd h (IsRun.ne_nil hi)

/-! ### Error tokens -/

theorem lex_errorToken (ap : Bool) :
    Lex dbg n (fun gs c => Toks AnyKind gs c ∧ gs = [.tok .ERROR c] ∧ c ≠ []) (errorToken ap) := by
  refine lex_map (Q := fun a c => a = c ∧ c ≠ []) ?_ fun a c h => by
    obtain ⟨rfl, h⟩ := h
    exact ⟨Toks.one (by exact h) trivial, rfl, h⟩
  refine lex_bind (lex_peek lex_any) fun x c h => ?_
  subst h
  simp only [List.nil_append]
  split
  · exact lex_take (Q := fun _ c => c ≠ []) (lex_bind (lex_lit _) fun _ c h =>
      (lex_takeWhile0 _).mono fun _ _ _ => by simp [h.2]) fun _ _ h => ⟨rfl, h⟩
  · split
    · split
      · refine lex_alt ?_
        simp only [List.mem_cons, List.not_mem_nil, or_false, forall_eq_or_imp, forall_eq]
        exact ⟨(lex_lit _).mono fun _ _ h => by simp [h.1, h.2], (lex_lit _).mono fun _ _ h => by simp [h.1, h.2]⟩
      · exact lex_fail
    · split
      · exact lex_stringImpl.mono fun _ _ h => ⟨h.1, IsString.ne_nil h.2⟩
      · split
        · exact (lex_takeWhile1 _).mono fun _ _ h => ⟨h.1, h.2.1⟩
        · exact (lex_takeWhile1 _).mono fun _ _ h => ⟨h.1, h.2.1⟩

theorem takeWhile1_fail {f : Char → Bool} {s s' : St} {e : Err} (h : takeWhile1 f s = .fail e s') :
    s' = s := by
  unfold P.takeWhile1 at h; split at h <;> simp_all

theorem BadQuote.append {a t : Text} (h : BadQuote t) : BadQuote (a ++ t) := by
  obtain ⟨x, b, rfl, hh⟩ := h
  exact ⟨a ++ x, b, by simp, hh⟩

theorem BrokenEscape.tail {c : Char} {t : Text} (hc : c ≠ '\\') (h : BrokenEscape (c :: t)) : BrokenEscape t := by
  obtain ⟨x, h, b, he, hh⟩ := h
  cases x with
  | nil => simp at he; exact absurd he.1 hc
  | cons y x => simp at he; exact ⟨x, h, b, he.2, hh⟩

/-- If an error token cannot be read and reading stopped in front of a parenthesis, then it did not move or
the text has a bad quote. -/
theorem errorToken_fail {s s' : St} {e : Err} (h : errorToken false s = .fail e s')
    (hp : AtParen s'.rest) : s' = s ∨ BadQuote s.rest := by
  unfold errorToken tokP at h
  replace h := bind_fail (map_fail h)
  rcases h with h | ⟨c, s1, h1, h⟩
  · have l := lex_peek (dbg := false) (n := _) lex_any s (Nat.le_refl _)
    unfold P.peek at h
    cases ha : any s <;> simp only [ha] at h
    · cases h
    · obtain ⟨_, rfl⟩ := any_fail ha
      cases h
      exact .inl (St.resetTo_self _)
    · cases h
    · cases h
  have hs1 : s1 = s ∧ ∃ cs, s.rest = c :: cs := by
    unfold P.peek at h1
    cases ha : any s <;> simp only [ha] at h1 <;> cases h1
    exact ⟨(any_ok ha).resetTo, _, (any_ok ha).rest⟩
  obtain ⟨rfl, cs, hr⟩ := hs1
  split at h
  · rename_i hc
    simp only [beq_iff_eq] at hc; subst hc
    have hpre : ['$'] <+: s1.rest := ⟨cs, by simp [hr]⟩
    simp [P.take, P.bind, lit_ok hpre, P.takeWhile0] at h
  · split at h
    · simp [P.fail] at h
      exact .inl h.2.symm
    · rename_i hnp
      have hq : ¬ AtParen s1.rest := by
        rintro ⟨x, hx⟩; rw [hr] at hx; simp at hx; simp [← hx.1] at hnp
      split at h
      · rename_i hc
        simp only [beq_iff_eq] at hc; subst hc
        have hb := stringImpl_fail h hp hq
        refine .inr ⟨[], cs, hr, fun hrd => stringImpl_complete hr hrd h, ?_⟩
        rw [hr] at hb
        exact BrokenEscape.tail (by decide) hb
      · split at h
        · exact .inl (takeWhile1_fail h)
        · exact .inl (takeWhile1_fail h)

theorem lex_errorTermInner : ∀ fuel n, n < fuel →
    Lex dbg n (fun gs c => Toks AnyKind gs c ∧ ['('] <+: c) (errorTermInner dbg fuel) := by
  intro fuel
  induction fuel with
  | zero => intro n h; omega
  | succ fuel ih =>
    intro n hn
    refine lex_bind' (Q := fun gs c => Toks AnyKind gs c ∧ c = ['('])
      (lex_map (lex_lit _) fun _ _ h => by
        obtain ⟨rfl, rfl⟩ := h
        exact ⟨Toks.one (by simp [TokenShape]) trivial, rfl⟩) fun a c h m hm => ?_
    obtain ⟨ha, rfl⟩ := h
    simp at hm
    refine lex_map (Q := Toks AnyKind) ?_ fun b d hd => ⟨ha.append hd, by simp⟩
    refine lex_seq_cons ?_ (lex_seq_cons (lex_optG ?_) lex_seq_nil)
    · refine lex_many ?_
      refine lex_bind (Q := Toks AnyKind) (lex_trivias.mono fun _ _ h => h.any) fun a c h1 => ?_
      refine lex_map (Q := fun gs c => Toks AnyKind gs c ∧ c ≠ []) ?_ fun b d hd =>
        ⟨h1.append hd.1, by simp [hd.2]⟩
      refine lex_bind (Q := fun gs c => Toks AnyKind gs c ∧ c ≠ []) ?_ fun a c h => 
        lex_pure (by simpa using h)
      refine lex_bind (lex_peek (Q := fun _ _ => True) (lex_opt (lex_lit _) (fun _ _ _ => trivial) trivial))
        fun o c hc => ?_
      subst hc
      simp only [List.nil_append]
      split
      · refine (ih m (by omega)).mono fun _ _ h => ⟨h.1, ?_⟩
        rintro rfl; simp at h
      · exact (lex_errorToken false).mono fun _ _ h => ⟨h.1, h.2.2⟩
    · exact (lex_tokP (K := AnyKind) (lex_lit _)
        (fun _ _ h => ⟨by simp [h.1, h.2], by simp [TokenShape, h.2]⟩) trivial).mono fun _ _ h => h.1

theorem lex_errorTerm (allowed : List Text) :
    Lex dbg n (fun gs c => Toks AnyKind gs c ∧ ['('] <+: c) (errorTerm dbg allowed) := by
  refine lex_bind (lex_peek (lex_not (Q := fun _ _ => True) ?_)) fun _ c h => ?_
  · refine lex_bind lex_trivias fun _ _ _ => lex_bind (lex_lit _) fun _ _ _ =>
      lex_bind lex_trivias fun _ _ _ => lex_verify lex_word fun _ _ _ _ => trivial
  · subst h
    intro s hs
    exact lex_errorTermInner (s.rest.length + 1) s.rest.length (by omega) s (Nat.le_refl _)

end Verif
