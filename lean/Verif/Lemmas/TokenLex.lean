import Verif.Lemmas.Lex
import Verif.Lemmas.CommentLex
/-!
Helper lemmas: the lexical parsers of `Model/Token.lean` consume text of the specified shape.
-/
namespace Verif
open P Spec

variable {dbg : Bool} {n : Nat}

/-! ### Character classes -/

theorem char_ext {c d : Char} (h : c.toNat = d.toNat) : c = d := Char.toNat_inj.mp h

/-- A decidable statement about characters below 128 can be checked exhaustively. -/
theorem ascii_forall (p : Char → Prop) (h : ∀ k : Fin 128, p (Char.ofNat k.val)) (c : Char)
    (hc : c.toNat < 128) : p c := by
  have := h ⟨c.toNat, hc⟩
  simpa [Char.ofNat_toNat] using this

theorem isIdChar_ascii {c : Char} (h : isIdChar c = true) : c.toNat < 128 := by
  simp [isIdChar, isAlnum, isLower, isUpper, isDigit, isPunct] at h
  omega

theorem isIdChar_iff (c : Char) : isIdChar c = true ↔ c ∈ idChars := by
  by_cases hc : c.toNat < 128
  · have : ∀ k : Fin 128, isIdChar (Char.ofNat k.val) = true ↔ Char.ofNat k.val ∈ idChars := by
      decide +kernel
    exact ascii_forall (fun c => isIdChar c = true ↔ c ∈ idChars) this c hc
  · constructor
    · intro h; exact absurd (isIdChar_ascii h) hc
    · intro h
      have : ∀ x ∈ idChars, x.toNat < 128 := by decide +kernel
      exact absurd (this c h) hc

theorem isLower_mem {c : Char} (h : isLower c = true) : c ∈ lowers := by
  have : ∀ k : Fin 128, isLower (Char.ofNat k.val) = true → Char.ofNat k.val ∈ lowers := by
    decide +kernel
  exact ascii_forall (fun c => isLower c = true → c ∈ lowers) this c (by simp [isLower] at h; omega) h

theorem isDigit_mem {c : Char} (h : isDigit c = true) : c ∈ digits := by
  have : ∀ k : Fin 128, isDigit (Char.ofNat k.val) = true → Char.ofNat k.val ∈ digits := by
    decide +kernel
  exact ascii_forall (fun c => isDigit c = true → c ∈ digits) this c (by simp [isDigit] at h; omega) h

theorem isHex_mem {c : Char} (h : isHex c = true) : c ∈ hexDigits := by
  have : ∀ k : Fin 128, isHex (Char.ofNat k.val) = true → Char.ofNat k.val ∈ hexDigits := by
    decide +kernel
  exact ascii_forall (fun c => isHex c = true → c ∈ hexDigits) this c (by simp [isHex, isDigit] at h; omega) h

theorem isDigit_isHex {c : Char} (h : isDigit c = true) : isHex c = true := by simp [isHex, h]

theorem isHex_isIdChar {c : Char} (h : isHex c = true) : isIdChar c = true := by
  have : ∀ k : Fin 128, isHex (Char.ofNat k.val) = true → isIdChar (Char.ofNat k.val) = true := by
    decide +kernel
  exact ascii_forall (fun c => isHex c = true → isIdChar c = true) this c (by simp [isHex, isDigit] at h; omega) h

theorem isMultispace_mem {c : Char} (h : isMultispace c = true) : c ∈ blanks := by
  simp [isMultispace, blanks] at h ⊢
  grind

/-! ### Token lists -/

/-- All elements are tokens of the specified shape and their texts concatenate to `c`. -/
def Toks (K : Kind → Prop) (gs : List Green) (c : Text) : Prop :=
  Green.textL gs = c ∧ ∀ g ∈ gs, ∃ k t, g = .tok k t ∧ TokenShape k t ∧ K k

theorem textL_append (a b : List Green) : Green.textL (a ++ b) = Green.textL a ++ Green.textL b := by
  induction a with
  | nil => simp [Green.textL]
  | cons g a ih => simp [Green.textL, ih]

theorem Toks.nil {K} : Toks K [] [] := ⟨rfl, by simp⟩

theorem Toks.append {K a c b d} (h1 : Toks K a c) (h2 : Toks K b d) : Toks K (a ++ b) (c ++ d) :=
  ⟨by rw [textL_append, h1.1, h2.1], by
    intro g hg
    rcases List.mem_append.mp hg with h | h
    · exact h1.2 g h
    · exact h2.2 g h⟩

theorem Toks.one {K : Kind → Prop} {k c} (h : TokenShape k c) (hk : K k) : Toks K [.tok k c] c :=
  ⟨by simp [Green.textL, Green.text], by
    intro g hg; simp at hg; exact ⟨k, c, hg, h, hk⟩⟩

theorem Toks.mono {K K' : Kind → Prop} {gs c} (h : Toks K gs c) (hk : ∀ k, K k → K' k) :
    Toks K' gs c :=
  ⟨h.1, fun g hg => by obtain ⟨k, t, h1, h2, h3⟩ := h.2 g hg; exact ⟨k, t, h1, h2, hk k h3⟩⟩

/-- Parsers yielding one token whose text is exactly what was consumed. -/
theorem lex_tokP {K : Kind → Prop} {k : Kind} {Q : Text → Text → Prop} {p : P Text}
    (hp : Lex dbg n Q p) (h : ∀ a c, Q a c → a = c ∧ TokenShape k c) (hk : K k) :
    Lex dbg n (fun gs c => Toks K gs c ∧ gs = [.tok k c] ∧ TokenShape k c) (tokP k p) :=
  lex_map hp fun a c hq => by
    obtain ⟨rfl, hs⟩ := h a c hq
    exact ⟨Toks.one hs hk, rfl, hs⟩

theorem lex_seq_nil {K} : Lex dbg n (Toks K) (seq []) := lex_pure Toks.nil

theorem lex_seq_cons {K : Kind → Prop} {p : G} {ps : List G} (hp : Lex dbg n (Toks K) p)
    (hps : Lex dbg n (Toks K) (seq ps)) : Lex dbg n (Toks K) (seq (p :: ps)) :=
  lex_bind hp fun _ _ h1 => lex_map hps fun _ _ h2 => h1.append h2

theorem lex_many {K : Kind → Prop} {p : G} (hp : Lex dbg n (fun gs c => Toks K gs c ∧ c ≠ []) p) :
    Lex dbg n (Toks K) (many dbg p) :=
  lex_map (Q := fun gss c => Toks K gss.flatten c)
    (lex_repeat0 hp (fun _ _ h => h.2) Toks.nil
      (fun a c as d h1 h2 => by simpa using h1.1.append h2)) fun _ _ h => h

theorem lex_optG {K : Kind → Prop} {p : G} (hp : Lex dbg n (Toks K) p) : Lex dbg n (Toks K) (optG p) :=
  lex_map (Q := fun o c => Toks K (o.getD []) c)
    (lex_opt hp (fun _ _ h => h) Toks.nil) fun _ _ h => h

/-! ### Words, blanks, comments -/

theorem lex_word : Lex dbg n (fun a c => a = c ∧ IsWord c) word :=
  lex_take (Q := fun _ c => IsWord c)
    (lex_bind lex_oneOf fun a c h => (lex_takeWhile0 isIdChar).mono fun b d h2 => by
      obtain ⟨rfl, hl⟩ := h
      exact ⟨a, d, rfl, isLower_mem hl, fun x hx => (isIdChar_iff x).mp (h2.2 x hx)⟩)
    fun _ _ h => ⟨rfl, h⟩

theorem IsWord.ne_nil {t : Text} (h : IsWord t) : t ≠ [] := by
  obtain ⟨h, r, rfl, _⟩ := h; simp

/-- Kinds of trivia tokens. -/
def IsTriv (k : Kind) : Prop := k = .WHITESPACE ∨ k = .LINE_COMMENT ∨ k = .BLOCK_COMMENT

theorem lex_ws : Lex dbg n (fun gs c => Toks IsTriv gs c ∧ c ≠ []) ws :=
  (lex_tokP (K := IsTriv) (k := .WHITESPACE) (lex_takeWhile1 isMultispace)
    (fun _ _ h => ⟨h.1, h.2.1, fun x hx => isMultispace_mem (h.2.2 x hx)⟩) (.inl rfl)).mono
    fun _ _ h => ⟨h.1, h.2.2.1⟩

theorem lex_tillLineEnding : Lex dbg n (fun _ c => '\n' ∉ c ∧ '\r' ∉ c) tillLineEnding := by
  refine lex_bind (lex_takeWhile0 _) fun a c h => ?_
  have hc : '\n' ∉ c ∧ '\r' ∉ c :=
    ⟨fun hm => by simpa using h.2 _ hm, fun hm => by simpa using h.2 _ hm⟩
  intro s hs
  dsimp only
  split
  · exact ⟨[], Adv.nil s, by simpa using hc⟩
  · exact ⟨[], Adv.nil s, ErrIn.new s⟩
  · exact ⟨[], Adv.nil s, by simpa using hc⟩

theorem lex_lineComment : Lex dbg n (fun gs c => Toks IsTriv gs c ∧ c ≠ []) lineComment :=
  (lex_tokP (K := IsTriv) (k := .LINE_COMMENT)
    (lex_take (Q := fun _ c => TokenShape .LINE_COMMENT c) (Q' := fun a c => a = c ∧ TokenShape .LINE_COMMENT c)
      (lex_bind (lex_lit _) fun a c h => lex_tillLineEnding.mono fun b d h2 =>
        ⟨d, by rw [h.2]; rfl, h2.1, h2.2⟩) fun _ _ h => ⟨rfl, h⟩)
    (fun _ _ h => h) (.inr (.inl rfl))).mono
    fun _ _ h => ⟨h.1, by obtain ⟨_, _, r, hr, _⟩ := h; simp [hr]⟩

/-- What `untilCommentDelim` finds. -/
theorem untilCommentDelim_spec {r t : Text} (h : untilCommentDelim r = some t) :
    ∃ r', r = t ++ r' ∧ (['(', ';'] <+: r' ∨ [';', ')'] <+: r') ∧
      ∀ u, u <+: r' → CommentRest u → CommentRest (t ++ u) := by
  induction r generalizing t with
  | nil => simp [untilCommentDelim] at h
  | cons c cs ih =>
    unfold untilCommentDelim at h
    split at h
    · cases h
      exact ⟨_, rfl, .inl ⟨_, rfl⟩, fun u _ hu => by simpa using hu⟩
    · cases h
      exact ⟨_, rfl, .inr ⟨_, rfl⟩, fun u _ hu => by simpa using hu⟩
    · rename_i h1 h2
      simp only [Option.map_eq_some_iff] at h
      obtain ⟨t', ht, rfl⟩ := h
      obtain ⟨r', hr, hd, hu⟩ := ih ht
      refine ⟨r', by simp [hr], hd, fun u hpre hcr => ?_⟩
      have hp : t' ++ u <+: cs := by
        rw [hr]; exact List.prefix_append_right_inj t' |>.mpr hpre
      refine .char c (t' ++ u) ?_ ?_ (hu u hpre hcr)
      · rintro ⟨x, hx⟩
        obtain ⟨y, hy⟩ := hp
        simp at hx
        exact h1 (x ++ y) hx.1.symm (by rw [← hy, ← hx.2]; simp)
      · rintro ⟨x, hx⟩
        obtain ⟨y, hy⟩ := hp
        simp at hx
        exact h2 (x ++ y) hx.1.symm (by rw [← hy, ← hx.2]; simp)

theorem adv_of_append {s : St} {c r : Text} (h : s.rest = c ++ r) :
    Adv s c { s with rest := s.rest.drop c.length, pos := s.pos + bytes c } :=
  ⟨by simp [h], rfl, rfl⟩

theorem Adv.eq_of_nil {s s'} (h : Adv s [] s') : s' = s := by
  have h1 := h.rest; have h2 := h.pos; have h3 := h.errs
  cases s; cases s'; simp [bytes] at *; simp [*]

theorem St.resetTo_self (s : St) : s.resetTo s = s := by cases s; rfl

theorem peekOpt_lit (t : Text) (s : St) :
    peek (opt (lit t)) s = .ok (if t.isPrefixOf s.rest then some t else none) s := by
  unfold P.peek P.opt P.lit
  by_cases h : t.isPrefixOf s.rest = true <;> simp [h, St.resetTo]

/-- Cases of one round of the comment loop. -/
theorem commentBody_cases {nested : P Text} (hn : Lex dbg n (fun a c => a = c ∧ BlockComment c) nested)
    (s : St) (hs : s.rest.length ≤ n) :
    (commentBody nested s = .fail .new s) ∨
    (∃ t s1, Adv s t s1 ∧ (∀ u, u <+: s1.rest → CommentRest u → CommentRest (t ++ u)) ∧
      ((['(', ';'] <+: s1.rest ∧
          ((∃ c s2, Adv s1 c s2 ∧ BlockComment c ∧ commentBody nested s = .ok () s2) ∨
           (∃ e s2, nested s1 = .fail e s2 ∧ commentBody nested s = .ok () s1) ∨
           (dbg = true ∧ HasBC s1.rest ∧ commentBody nested s = .panic))) ∨
       (¬ ['(', ';'] <+: s1.rest ∧ [';', ')'] <+: s1.rest ∧ commentBody nested s = .ok () s1))) := by
  cases hu : untilCommentDelim s.rest with
  | none => left; simp [commentBody, takeUntilCommentDelim, P.bind, hu]
  | some t =>
    right
    obtain ⟨r', hr, hd, hcr⟩ := untilCommentDelim_spec hu
    obtain ⟨s1, hk, hadv, hs1r⟩ : ∃ s1, takeUntilCommentDelim s = .ok () s1 ∧ Adv s t s1 ∧ s1.rest = r' :=
      ⟨_, by simp [takeUntilCommentDelim, hu], adv_of_append hr, by simp [hr]⟩
    have hlen := hadv.length
    refine ⟨t, s1, hadv, by rwa [hs1r], ?_⟩
    unfold commentBody
    simp only [P.bind, hk, peekOpt_lit]
    by_cases hp : ['(', ';'] <+: s1.rest
    · left
      refine ⟨hp, ?_⟩
      rw [if_pos (List.isPrefixOf_iff_prefix.mpr hp)]
      have h := hn s1 (by omega)
      simp only [P.void, P.map, P.bind, P.opt, P.pure]
      cases hns : nested s1 <;> simp only [hns, LexOut] at h ⊢
      · obtain ⟨c, ha, hb⟩ := h
        exact .inl ⟨c, _, ha, hb.2, rfl⟩
      · obtain ⟨c, ha, hb⟩ := h
        rw [ha.resetTo]
        exact .inr (.inl ⟨_, _, rfl, rfl⟩)
      · exact .inr (.inr ⟨h.1, h.2, trivial⟩)
    · right
      refine ⟨hp, ?_, ?_⟩
      · rw [hs1r] at hp ⊢; exact hd.resolve_left hp
      · rw [if_neg (by rwa [List.isPrefixOf_iff_prefix])]; rfl

/-- A comment that cannot be closed never gets past the nested opener. -/
theorem comment_stuck {nested : P Text} (hn : Lex dbg n (fun a c => a = c ∧ BlockComment c) nested)
    {s : St} (hs : s.rest.length ≤ n) (hp : ['(', ';'] <+: s.rest) {e : Err} {s2 : St}
    (hf : nested s = .fail e s2) (fuel : Nat) :
    repeatTillF dbg (commentBody nested) (lit [';', ')']) (fuel + 1) s = assertFail dbg s := by
  obtain ⟨r, hr⟩ := hp
  have h1 : lit [';', ')'] s = .fail .new s := by
    apply lit_fail
    rintro ⟨x, hx⟩
    rw [← hr] at hx; simp at hx
  have hb : commentBody nested s = .ok () s := by
    have hu : untilCommentDelim s.rest = some [] := by rw [← hr]; simp [untilCommentDelim]
    unfold commentBody takeUntilCommentDelim
    simp only [P.bind, hu, List.length_nil, List.drop_zero, bytes_nil, Nat.add_zero, peekOpt_lit]
    rw [if_pos (List.isPrefixOf_iff_prefix.mpr ⟨r, hr⟩)]
    have h := hn s hs
    simp only [P.void, P.map, P.bind, P.opt, P.pure]
    rw [hf] at h
    obtain ⟨c, ha, hb⟩ := h
    simp only [hf, ha.resetTo]
  unfold P.repeatTillF
  simp only [h1, St.resetTo_self, hb, if_true]

/-- Inside a block comment a panic needs only one more that is not closed. -/
def LoopOut (dbg : Bool) (Q : α → Text → Prop) (s : St) (o : Out α) : Prop :=
  LexOut dbg Q s o ∨ (o = .panic ∧ dbg = true ∧ ∃ b c, s.rest = b ++ c ∧ Unclosed c)

theorem loop_assertFail {Q : α → Text → Prop} {s : St} (h : Unclosed s.rest) :
    LoopOut dbg Q s (assertFail dbg s : Out α) := by
  unfold P.assertFail
  cases dbg
  · exact .inl ⟨[], Adv.nil s, ErrIn.new s⟩
  · exact .inr ⟨rfl, rfl, [], _, rfl, h⟩

theorem LexOut.after {Q Q' : α → Text → Prop} {s s1 : St} {c : Text} {o : Out α} (ha : Adv s c s1)
    (h : LexOut dbg Q s1 o) (hq : ∀ a d, Q a d → d <+: s1.rest → Q' a (c ++ d)) : LexOut dbg Q' s o := by
  cases o <;> simp only [LexOut] at h ⊢
  · obtain ⟨d, hd, hqd⟩ := h
    exact ⟨c ++ d, ha.trans hd, hq _ _ hqd ⟨_, hd.rest.symm⟩⟩
  · obtain ⟨d, hd, hqd⟩ := h
    exact ⟨c ++ d, ha.trans hd, hqd.adv ha⟩
  · exact ⟨h.1, by rw [ha.rest]; exact h.2.append⟩

theorem LexOut.map {Q : α → Text → Prop} {Q' : β → Text → Prop} {s s0 : St} {p : P α} {f : α → β}
    (h : LexOut dbg Q s0 (p s)) (hq : ∀ a d, Q a d → Q' (f a) d) : LexOut dbg Q' s0 (map f p s) := by
  unfold P.map P.bind
  cases hp : p s <;> simp only [hp, LexOut, P.pure] at h ⊢ <;> try exact h
  obtain ⟨d, hd, hqd⟩ := h
  exact ⟨d, hd, hq _ _ hqd⟩

theorem LoopOut.after {Q Q' : α → Text → Prop} {s s1 : St} {c : Text} {o : Out α} (ha : Adv s c s1)
    (h : LoopOut dbg Q s1 o) (hq : ∀ a d, Q a d → d <+: s1.rest → Q' a (c ++ d)) : LoopOut dbg Q' s o := by
  rcases h with h | ⟨h1, h2, b, d, h3, h4⟩
  · exact .inl (h.after ha hq)
  · exact .inr ⟨h1, h2, c ++ b, d, by rw [ha.rest, h3]; simp, h4⟩

theorem LoopOut.map {Q : α → Text → Prop} {Q' : β → Text → Prop} {s s0 : St} {p : P α} {f : α → β}
    (h : LoopOut dbg Q s0 (p s)) (hq : ∀ a d, Q a d → Q' (f a) d) : LoopOut dbg Q' s0 (map f p s) := by
  rcases h with h | ⟨h1, h2⟩
  · exact .inl (h.map hq)
  · exact .inr ⟨by simp [P.map, P.bind, h1], h2⟩

theorem lex_commentLoop {nested : P Text}
    (hn : Lex dbg n (fun a c => a = c ∧ BlockComment c) nested)
    (hg : ∀ c t : Text, (c ++ t).length ≤ n → BlockComment c → Gives nested (c ++ t) c t) :
    ∀ fuel s, s.rest.length ≤ n → s.rest.length < fuel →
      LoopOut dbg (fun _ c => CommentRest c) s
        (repeatTillF dbg (commentBody nested) (lit [';', ')']) fuel s) := by
  intro fuel
  induction fuel with
  | zero => intro s _ h; omega
  | succ fuel ih =>
    intro s hs hf
    unfold P.repeatTillF
    by_cases hc : [';', ')'] <+: s.rest
    · simp only [lit_ok hc]
      obtain ⟨r, hr⟩ := hc
      exact .inl ⟨_, adv_of_append hr.symm, .close⟩
    · simp only [lit_fail hc, St.resetTo_self]
      rcases commentBody_cases hn s hs with h | ⟨t, s1, ha, hcr, h⟩
      · simp only [h]; exact .inl ⟨[], Adv.nil s, ErrIn.new s⟩
      · have hl := ha.length
        rcases h with ⟨hp, ⟨c, s2, ha2, hb, h⟩ | ⟨e, s2, hf2, h⟩ | ⟨hd, hbc, h⟩⟩ | ⟨hp, hp2, h⟩
        · simp only [h]
          have hl2 := ha2.length
          have hc2 : 2 ≤ c.length := by cases hb; simp
          rw [if_neg (by omega)]
          refine LoopOut.map (Q := fun _ c => CommentRest c) ?_ (fun _ _ h => h)
          refine LoopOut.after (ha.trans ha2) (ih s2 (by omega) (by omega)) fun a d hd hpre => ?_
          rw [List.append_assoc]
          refine hcr _ ?_ (.nested c d hb hd)
          rw [ha2.rest]; exact (List.prefix_append_right_inj c).mpr hpre
        · simp only [h]
          have hun : Unclosed s1.rest := by
            refine ⟨hp, fun c hc ⟨t, ht⟩ => ?_⟩
            obtain ⟨pos', hok⟩ := hg c t (by rw [ht]; omega) hc s1.pos s1.errs
            rw [ht] at hok
            rw [show nested s1 = nested ⟨s1.rest, s1.pos, s1.errs⟩ from rfl, hok] at hf2
            cases hf2
          have hstuck := comment_stuck hn (by omega : s1.rest.length ≤ n) hp hf2
          split
          · rename_i heq
            have : t = [] := List.eq_nil_of_length_eq_zero (by omega)
            subst this
            have := ha.eq_of_nil; subst this
            exact loop_assertFail hun
          · rename_i hne
            obtain ⟨fuel', rfl⟩ : ∃ k, fuel = k + 1 := ⟨fuel - 1, by omega⟩
            refine LoopOut.map (Q := fun _ c => CommentRest c) ?_ (fun _ _ h => h)
            rw [hstuck fuel']
            refine LoopOut.after (Q := fun _ _ => False) ha (loop_assertFail hun) (by simp)
        · simp only [h]
          exact .inl ⟨hd, by rw [ha.rest]; exact hbc.append⟩
        · simp only [h]
          have : t ≠ [] := by
            rintro rfl
            have := ha.eq_of_nil; subst this
            exact hc hp2
          have : 0 < t.length := List.length_pos_iff.mpr this
          rw [if_neg (by omega)]
          refine LoopOut.map (Q := fun _ c => CommentRest c) ?_ (fun _ _ h => h)
          exact LoopOut.after ha (ih s1 (by omega) (by omega)) fun a d hd hpre => hcr _ hpre hd

theorem gives_nested {fuel : Nat} (c t : Text) (h : c.length < fuel) (hc : BlockComment c) : Gives (blockCommentImpl dbg fuel) (c ++ t) c t :=
  (comment_gives c.length).1 c (Nat.le_refl _) hc t fuel h

theorem lex_blockCommentImpl : ∀ fuel n, n < fuel →
    Lex dbg n (fun a c => a = c ∧ BlockComment c) (blockCommentImpl dbg fuel) := by
  intro fuel
  induction fuel with
  | zero => intro n h; omega
  | succ fuel ih =>
    intro n hn s hs
    by_cases hp : ['(', ';'] <+: s.rest
    · obtain ⟨r, hr⟩ := hp
      have hlen := congrArg List.length hr
      simp only [List.length_append, List.length_cons, List.length_nil] at hlen
      have hrest : s.rest.drop 2 = r := by rw [← hr]; rfl
      have hL := lex_commentLoop (ih r.length (by omega))
        (fun c t hl hc => gives_nested c t (by simp at hl; omega) hc) (r.length + 1) ⟨r, s.pos + bytes ['(', ';'], s.errs⟩ (Nat.le_refl _) (Nat.lt_succ_self _)
      have ha : Adv s ['(', ';'] ⟨r, s.pos + bytes ['(', ';'], s.errs⟩ := ⟨hr.symm, rfl, rfl⟩
      have ho : blockCommentImpl dbg (fuel + 1) s = take (fun _ => repeatTillF dbg (commentBody (blockCommentImpl dbg fuel)) (lit [';', ')']) (r.length + 1) ⟨r, s.pos + bytes ['(', ';'], s.errs⟩) s := by
        rw [blockCommentImpl]
        simp only [P.take, P.bind, lit_ok ⟨r, hr⟩, List.length_cons, List.length_nil, hrest, Nat.zero_add, Nat.reduceAdd]
        rfl
      have hun : blockCommentImpl dbg (fuel + 1) s = .panic → Unclosed s.rest := by
        intro ho
        refine ⟨⟨r, hr⟩, ?_⟩
        rintro c hc ⟨t, ht⟩
        obtain ⟨pos', hok⟩ := gives_nested (dbg := dbg) (fuel := fuel + 1) c t (by have := congrArg List.length ht; simp at this; omega) hc s.pos s.errs
        rw [ht] at hok
        rw [show blockCommentImpl dbg (fuel + 1) s = blockCommentImpl dbg (fuel + 1) ⟨s.rest, s.pos, s.errs⟩ from rfl, hok] at ho
        cases ho
      generalize repeatTillF dbg (commentBody (blockCommentImpl dbg fuel)) (lit [';', ')']) (r.length + 1) ⟨r, s.pos + bytes ['(', ';'], s.errs⟩ = o at hL ho
      rcases hL with h | ⟨rfl, hd, b, c, hb, hc⟩
      · rw [ho]
        have h' : LexOut dbg (fun _ c => BlockComment c) s o := h.after ha fun a d hd _ => .mk _ hd
        unfold P.take
        cases o <;> simp only [LexOut] at h' ⊢ <;> try exact h'
        obtain ⟨c, hadv, hq⟩ := h'
        rw [hadv.taken]
        exact ⟨c, hadv, rfl, hq⟩
      · rw [ho]
        refine ⟨hd, [], b, c, ?_, ?_, hc⟩
        · rw [← hr, show r = b ++ c from hb]; rfl
        · have := hun ho
          rw [← hr, show r = b ++ c from hb] at this
          exact this
    · rw [blockCommentImpl]
      simp only [P.take, P.bind, lit_fail hp]
      exact ⟨[], Adv.nil s, ErrIn.new s⟩

theorem lex_blockComment : Lex dbg n (fun gs c => Toks IsTriv gs c ∧ c ≠ []) (blockComment dbg) := by
  intro s hs
  have := lex_tokP (K := IsTriv) (k := .BLOCK_COMMENT)
    (lex_blockCommentImpl (dbg := dbg) (s.rest.length + 1) s.rest.length (by omega))
    (fun _ _ h => h) (.inr (.inr rfl))
  exact (this.mono fun gs c h => (⟨h.1, by
    have h3 : BlockComment c := h.2.2
    cases h3; simp⟩ : Toks IsTriv gs c ∧ c ≠ [])) s (Nat.le_refl _)

theorem lex_trivias : Lex dbg n (Toks IsTriv) (trivias dbg) :=
  lex_many (lex_alt (by
    simp only [List.mem_cons, List.not_mem_nil, or_false, forall_eq_or_imp, forall_eq]
    exact ⟨lex_ws, lex_lineComment, lex_blockComment⟩))

end Verif
