import Verif.Lemmas.SimRename
import Verif.Lemmas.AcceptTok
/-!
Helper lemmas: the parser on two texts that differ in names only, where it records no error on the left.  Names may contain
backslashes: these are not read inside strings, since strings are read where they begin.  `Cl`: two parsers do the same on
both sides, or the left one records an error.
-/
namespace Verif.Clean
open P Spec Sim

/-- A complete block comment begins here. -/
def Starts (t : Text) : Prop := ∃ c r, BlockComment c ∧ t = c ++ r
/-- A string literal, before `u`. -/
def StrAt (t u : Text) : Prop := ∃ b, StrBody b ∧ (t = '"' :: (b ++ ['"']) ∨ (t = '"' :: b ∧ (u = [] ∨ NewLine u)))
/-- A line comment, before `u`. -/
def LineAt (t u : Text) : Prop := ∃ r, '\n' ∉ r ∧ '\r' ∉ r ∧ t = ';' :: ';' :: r ∧ (u = [] ∨ NewLine u)
/-- A character that begins no string, comment or term. -/
def QuietC (c : Char) : Prop := c ≠ '"' ∧ c ≠ '(' ∧ c ≠ ';'
/-- A name, or such a character. -/
def Quiet : Seg → Prop
  | .ch c => QuietC c
  | .name _ _ => True

/-- What is known of the pieces at the places where the parser is. -/
structure Inv where
  I : List Seg → Prop
  plain : ∀ {r}, Pl r → I r
  quiet : ∀ {x r}, Oks true (x :: r) → I (x :: r) → Quiet x → I r
  paren : ∀ {r}, Oks true r → I (.ch '(' :: r) → ¬ Starts ('(' :: lft r) → I r
  block : ∀ {c r}, Oks true (c ++ r) → I (c ++ r) → BlockComment (lft c) → I r
  line : ∀ {c r}, Oks true (c ++ r) → I (c ++ r) → LineAt (lft c) (lft r) → I r
  str : ∀ {r}, Oks true r → I (.ch '"' :: r) →
    Pl (.ch '"' :: r) ∨ ∃ c d, .ch '"' :: r = c ++ d ∧ Pl c ∧ StrAt (lft c) (lft d) ∧ I d

/-- The two states are at the same place, and there are no errors. -/
structure At2 (J : Inv) (ss : List Seg) (s s' : St) : Prop where
  at_ : Sim.At true ss s s'
  errs : s.errs = []
  inv : J.I ss

theorem At2.errs' {J ss s s'} (h : At2 J ss s s') : s'.errs = [] := by
  have := h.at_.errs
  rw [h.errs] at this
  exact List.length_eq_zero_iff.mp this.symm

theorem At2.reset {J ss} {s s' t t' : St} (h : At2 J ss s s') (h1 : t.errs = []) (h2 : t'.errs = []) : At2 J ss (t.resetTo s) (t'.resetTo s') :=
  ⟨⟨h.at_.ok, h.at_.l, h.at_.r, by simp [St.resetTo, h1, h2]⟩, h1, h.inv⟩

/-- An error was recorded, or there is no result. -/
def Bad : Out α → Prop
  | .ok _ s => s.errs ≠ []
  | .fail _ s => s.errs ≠ []
  | _ => True

theorem bad_of_mono {p : P α} {s : St} (h : Mono p) (hs : s.errs ≠ []) : Bad (p s) := by
  cases hp : p s <;> simp only [Bad]
  · exact fun he => hs (h.ok hp he)
  · exact fun he => hs (h.fail hp he)

/-- The outcomes are the same. -/
def COut (J : Inv) (V : List Seg → List Seg → α → β → Prop) (st : Bool) (ss : List Seg) : Out α → Out β → Prop
  | .ok a s, .ok b s' => ∃ c r, ss = c ++ r ∧ At2 J r s s' ∧ V c r a b ∧ (st = true → c ≠ [])
  | .fail _ s, .fail _ s' => s.errs = [] ∧ s'.errs = []
  | _, _ => False

/-- The parsers do the same on all texts of less than `n` pieces, or the left one records an error; `st`: they consume
something; `b`: where no complete block comment begins. -/
structure Cl (J : Inv) (b : Bool) (V : List Seg → List Seg → α → β → Prop) (st : Bool) (n : Nat) (p : P α) (q : P β) : Prop where
  mono : Mono p
  sim : ∀ ss s s', ss.length < n → At2 J ss s s' → (b = true → ¬ Starts (lft ss)) → Bad (p s) ∨ COut J V st ss (p s) (q s')

variable {J : Inv} {b : Bool} {V : List Seg → List Seg → α → β → Prop} {W : List Seg → List Seg → α' → β' → Prop} {st : Bool} {n : Nat}
  {p : P α} {q : P β} {dbg : Bool}

theorem Cl.le {m : Nat} (h : Cl J b V st n p q) (hm : m ≤ n) : Cl J b V st m p q :=
  ⟨h.mono, fun ss s s' hs ha hb => h.sim ss s s' (by omega) ha hb⟩
theorem Cl.flag {b' : Bool} (h : Cl J b V st n p q) (hb : b = true → b' = true) : Cl J b' V st n p q :=
  ⟨h.mono, fun ss s s' hs ha hb' => h.sim ss s s' hs ha fun h => hb' (hb h)⟩

theorem COut.mono {V' : List Seg → List Seg → α → β → Prop} {st' : Bool} {ss : List Seg} {o : Out α} {o' : Out β} (h : COut J V st ss o o')
    (hv : ∀ c r a b, V c r a b → V' c r a b) (hs : st' = true → st = true) : COut J V' st' ss o o' := by
  cases o <;> cases o' <;> simp only [COut] at h ⊢
  · obtain ⟨c, r, h1, h2, h3, h4⟩ := h; exact ⟨c, r, h1, h2, hv _ _ _ _ h3, fun h => h4 (hs h)⟩
  · exact h

theorem Cl.imp {V' : List Seg → List Seg → α → β → Prop} (h : Cl J b V st n p q) (hv : ∀ c r a b, V c r a b → V' c r a b) : Cl J b V' st n p q :=
  ⟨h.mono, fun ss s s' hs ha hb => (h.sim ss s s' hs ha hb).imp id fun h => h.mono hv id⟩
theorem Cl.weak (h : Cl J b V true n p q) : Cl J b V st n p q :=
  ⟨h.mono, fun ss s s' hs ha hb => (h.sim ss s s' hs ha hb).imp id fun h => h.mono (fun _ _ _ _ h => h) fun _ => rfl⟩
theorem Cl.lax (h : Cl J b V st n p q) : Cl J b V false n p q :=
  ⟨h.mono, fun ss s s' hs ha hb => (h.sim ss s s' hs ha hb).imp id fun h => h.mono (fun _ _ _ _ h => h) (fun h => by cases h)⟩

theorem mono_bind {p : P α} {f : α → P α'} (hp : Mono p) (hf : ∀ a, Mono (f a)) : Mono (bind p f) := by
  refine .of (fun s a s' h he => ?_) (fun s e s' h he => ?_)
  · obtain ⟨_, s1, h1, h2⟩ := bind_ok h
    exact hp.ok h1 ((hf _).ok h2 he)
  · rcases bind_fail h with h1 | ⟨_, s1, h1, h2⟩
    · exact hp.fail h1 he
    · exact hp.ok h1 ((hf _).fail h2 he)
theorem mono_pure {a : α} : Mono (P.pure a) := .of (fun _ _ _ h he => by cases h; exact he) (fun _ _ _ h => by cases h)
theorem mono_pfail : Mono (P.fail : P α) := .of (fun _ _ _ h => by cases h) (fun _ _ _ h he => by cases h; exact he)
theorem mono_map {p : P α} {f : α → α'} (hp : Mono p) : Mono (map f p) := mono_bind hp fun _ => mono_pure
theorem mono_opt {p : P α} (hp : Mono p) : Mono (opt p) := by
  refine .of (fun s a s' h he => ?_) (fun s e s' h he => ?_) <;> unfold opt at h <;> cases h1 : p s <;> simp only [h1] at h <;> cases h
  · exact hp.ok h1 he
  · exact hp.fail h1 he
theorem mono_fail2 {p : P α} (h : Mono p) {s s0 : St} {e : Err} (hp : p s = .fail e s0) (he : (s0.resetTo s).errs = []) : s.errs = [] := h.fail hp he
theorem mono_alt2 {p q : P α} (hp : Mono p) (hq : Mono q) : Mono (alt2 p q) := by
  refine .of (fun s a s' h he => ?_) (fun s e s' h he => ?_) <;> unfold alt2 at h <;> cases h1 : p s <;> simp only [h1] at h <;> try cases h
  · exact hp.ok h1 he
  · exact mono_fail2 hp h1 (hq.ok h he)
  · exact mono_fail2 hp h1 (hq.fail h he)
theorem mono_must {p : G} (hp : Mono p) : Mono (must p) := by
  refine .of (fun s a s' h he => ?_) (fun s e s' h he => ?_) <;> unfold must at h <;> cases h1 : p s <;> simp only [h1] at h <;> cases h
  · exact hp.ok h1 he
  · exact absurd he (record_errs _ _)
theorem mono_assertFail : Mono (assertFail dbg : P α) := by
  refine .of (fun s a s' h he => ?_) (fun s e s' h he => ?_) <;> unfold assertFail at h <;> split at h <;> cases h
  exact he
theorem mono_repeatF {p : P α} (hp : Mono p) : ∀ f, Mono (repeatF dbg p f)
  | 0 => .of (fun _ _ _ h => by cases h) (fun _ _ _ h => by cases h)
  | f + 1 => by
    refine .of (fun s a s' h he => ?_) (fun s e s' h he => ?_) <;> unfold repeatF at h <;> cases h1 : p s <;> simp only [h1] at h <;> try cases h
    · split at h
      · exact hp.ok h1 (mono_assertFail.ok h he)
      · exact hp.ok h1 ((mono_map (mono_repeatF hp f)).ok h he)
    · exact hp.fail h1 he
    · split at h
      · exact hp.ok h1 (mono_assertFail.fail h he)
      · exact hp.ok h1 ((mono_map (mono_repeatF hp f)).fail h he)
theorem mono_repeat0 {p : P α} (hp : Mono p) : Mono (repeat0 dbg p) :=
  .of (fun _ _ _ h he => (mono_repeatF hp _).ok h he) (fun _ _ _ h he => (mono_repeatF hp _).fail h he)
theorem mono_repeatTillF {p : P α} {g : P β} (hp : Mono p) (hg : Mono g) : ∀ f, Mono (repeatTillF dbg p g f)
  | 0 => .of (fun _ _ _ h => by cases h) (fun _ _ _ h => by cases h)
  | f + 1 => by
    have key : ∀ s s0 : St, (s0.resetTo s).errs = s0.errs := fun _ _ => rfl
    refine .of (fun s a s' h he => ?_) (fun s e s' h he => ?_) <;> unfold repeatTillF at h <;> cases h0 : g s <;> simp only [h0] at h <;> try cases h
    · exact hg.ok h0 he
    all_goals
      rename_i e0 s0
      cases h1 : p (s0.resetTo s) <;> simp only [h1] at h <;> try cases h
    · split at h
      · exact mono_fail2 hg h0 (hp.ok h1 (mono_assertFail.ok h he))
      · exact mono_fail2 hg h0 (hp.ok h1 ((mono_map (mono_repeatTillF hp hg f)).ok h he))
    · split at h
      · exact mono_fail2 hg h0 (hp.ok h1 (mono_assertFail.fail h he))
      · exact mono_fail2 hg h0 (hp.ok h1 ((mono_map (mono_repeatTillF hp hg f)).fail h he))
    · exact mono_fail2 hg h0 (hp.fail h1 he)
theorem mono_repeatTill {p : P α} {g : P β} (hp : Mono p) (hg : Mono g) : Mono (repeatTill dbg p g) :=
  .of (fun _ _ _ h he => (mono_repeatTillF hp hg _).ok h he) (fun _ _ _ h he => (mono_repeatTillF hp hg _).fail h he)
theorem mono_repeat1 {p : P α} (hp : Mono p) : Mono (repeat1 dbg p) := by
  refine .of (fun s a s' h he => ?_) (fun s e s' h he => ?_) <;> unfold repeat1 at h <;> cases h1 : p s <;> simp only [h1] at h <;> try cases h
  · exact hp.ok h1 ((mono_map (mono_repeat0 hp)).ok h he)
  · exact hp.ok h1 ((mono_map (mono_repeat0 hp)).fail h he)
  · exact hp.fail h1 he

theorem cl_pure {a : α} {a' : β} (h : ∀ r, V [] r a a') : Cl J b V false n (pure a) (pure a') :=
  ⟨mono_pure, fun ss _ _ _ ha _ => .inr ⟨[], ss, rfl, ha, h _, (fun h => by cases h)⟩⟩
theorem cl_fail : Cl J b V st n (P.fail) (P.fail) := ⟨mono_pfail, fun _ _ _ _ ha _ => .inr ⟨ha.errs, ha.errs'⟩⟩

/-- What follows starts where the first one stopped. -/
theorem cl_bind {st1 st2 : Bool} {f : α → P α'} {g : β → P β'} (hp : Cl J b V st1 n p q) (hm : ∀ a, Mono (f a))
    (hf : ∀ c r a a', V c r a a' → (st1 = true → c ≠ []) → ∀ s s', r.length + c.length < n → At2 J r s s' →
      Bad (f a s) ∨ COut J (fun d r' x y => W (c ++ d) r' x y) st2 r (f a s) (g a' s'))
    (hst : st = (st1 || st2) := by rfl) : Cl J b W st n (bind p f) (bind q g) := by
  refine ⟨mono_bind hp.mono hm, fun ss s s' hs ha hb => ?_⟩
  unfold P.bind
  rcases hp.sim ss s s' hs ha hb with h | h
  · left
    cases h1 : p s <;> simp only [h1, Bad] at h ⊢
    · exact bad_of_mono (hm _) h
    · exact h
  · cases h1 : p s <;> cases h2 : q s' <;> simp only [h1, h2, COut] at h ⊢
    · obtain ⟨c, r, rfl, h3, h4, h5⟩ := h
      rename_i a s1 a' s1'
      have hl : r.length + c.length < n := by simp only [List.length_append] at hs; omega
      refine (hf c r a a' h4 h5 s1 s1' hl h3).imp id ?_
      cases f a s1 <;> cases g a' s1' <;> simp only [COut] <;> try (intro h; exact h)
      rintro ⟨d, r', rfl, h6, h7, h8⟩
      refine ⟨c ++ d, r', by simp, h6, h7, fun hst' => ?_⟩
      rw [hst] at hst'
      rcases Bool.or_eq_true_iff.mp hst' with h | h
      · simp [h5 h]
      · simp [h8 h]
    · exact .inr h

theorem cl_map {f : α → α'} {g : β → β'} (hp : Cl J b V st n p q) (hf : ∀ c r a a', V c r a a' → W c r (f a) (g a')) :
    Cl J b W st n (map f p) (map g q) := by
  refine cl_bind (st1 := st) (st2 := false) hp (fun _ => mono_pure) (fun c r a a' h _ s s' _ ha => .inr ?_) (by simp)
  exact ⟨[], r, rfl, ha, by simpa using hf _ _ _ _ h, (fun h => by cases h)⟩

theorem cl_context {m m' : Msg} (hp : Cl J b V st n p q) : Cl J b V st n (context m p) (context m' q) := by
  refine ⟨mono_context hp.mono, fun ss s s' hs ha hb => ?_⟩
  have := hp.sim ss s s' hs ha hb
  unfold P.context
  cases h1 : p s <;> cases h2 : q s' <;> simp only [h1, h2, COut, Bad] at this ⊢ <;> exact this

/-- Nothing is recorded. -/
def Keeps (p : P α) : Prop := ∀ s, match p s with
  | .ok _ s' => s'.errs = s.errs
  | .fail _ s' => s'.errs = s.errs
  | _ => True
theorem keeps_lex {p : P α} {Q : α → Text → Prop} (h : ∀ n, Lex dbg n Q p) : Keeps p := fun s => by
  have := h s.rest.length s (Nat.le_refl _)
  cases hp : p s <;> simp only [hp, LexOut] at this ⊢ <;> obtain ⟨c, h, _⟩ := this <;> exact h.errs
theorem Keeps.ok {p : P α} (h : Keeps p) {s s' : St} {a : α} (hp : p s = .ok a s') : s'.errs = s.errs := by
  have := h s; rw [hp] at this; exact this
theorem Keeps.fail {p : P α} (h : Keeps p) {s s' : St} {e : Err} (hp : p s = .fail e s') : s'.errs = s.errs := by
  have := h s; rw [hp] at this; exact this
theorem Keeps.mono {p : P α} (h : Keeps p) : Mono p :=
  .of (fun _ _ _ hp he => by rw [← h.ok hp]; exact he) (fun _ _ _ hp he => by rw [← h.fail hp]; exact he)

/-- What fails on both sides, recording nothing. -/
theorem same_errs {ss r : List Seg} {s s' t t' : St} (h : At2 J ss s s') (h1 : t.errs = s.errs) (h2 : Sim.At true r t t') : t.errs = [] ∧ t'.errs = [] := by
  have e := h2.errs
  rw [h1, h.errs] at e
  exact ⟨by rw [h1, h.errs], List.length_eq_zero_iff.mp e.symm⟩

/-- Looking ahead, and going on. -/
theorem cl_look {V0 : List Seg → α → β → Prop} {f : α → P α'} {g : β → P β'} (hp : ∀ n, Sim true V0 false n p q) (h0 : ∀ c a a', V0 c a a' → c = [])
    (hk : Keeps p) (hm : ∀ a, Mono (f a)) (hf : ∀ a a', V0 [] a a' → Cl J b W st n (f a) (g a')) : Cl J b W st n (bind p f) (bind q g) := by
  refine ⟨mono_bind hk.mono hm, fun ss s s' hs ha hb => ?_⟩
  have h := hp ss.length ss s s' (Nat.le_refl _) ha.at_
  unfold P.bind
  cases h1 : p s <;> cases h2 : q s' <;> simp only [h1, h2, SimOut] at h ⊢
  · obtain ⟨c, r, rfl, h3, h4, _⟩ := h
    cases h0 _ _ _ h4
    exact (hf _ _ h4).sim _ _ _ hs ⟨h3, (same_errs ha (hk.ok h1) h3).1, ha.inv⟩ hb
  · obtain ⟨c, r, rfl, h3⟩ := h
    exact .inr (same_errs ha (hk.fail h1) h3)
  · exact .inl trivial

theorem cl_opt {W : List Seg → List Seg → Option α → Option β → Prop} (hp : Cl J b V st n p q) (hs : ∀ c r a a', V c r a a' → W c r (some a) (some a'))
    (hn : ∀ r, W [] r none none) : Cl J b W false n (opt p) (opt q) := by
  refine ⟨mono_opt hp.mono, fun ss s s' hl ha hb => ?_⟩
  have := hp.sim ss s s' hl ha hb
  unfold opt
  by_cases hbad : Bad (p s)
  · left
    cases h1 : p s <;> simp only [h1, Bad] at hbad ⊢ <;> exact hbad
  · replace this := this.resolve_left hbad
    right
    cases h1 : p s <;> cases h2 : q s' <;> simp only [h1, h2, COut] at this ⊢
    · obtain ⟨c, r, h3, h4, h5, _⟩ := this
      exact ⟨c, r, h3, h4, hs _ _ _ _ h5, (fun h => by cases h)⟩
    · exact ⟨[], ss, rfl, ha.reset this.1 this.2, hn _, (fun h => by cases h)⟩

theorem cl_alt2 {p' : P α} {q' : P β} (h1 : Cl J b V st n p q) (h2 : Cl J b V st n p' q') : Cl J b V st n (alt2 p p') (alt2 q q') := by
  refine ⟨mono_alt2 h1.mono h2.mono, fun ss s s' hl ha hb => ?_⟩
  have := h1.sim ss s s' hl ha hb
  unfold alt2
  by_cases hbad : Bad (p s)
  · left
    cases e1 : p s <;> simp only [e1] at hbad ⊢ <;> try exact hbad
    exact bad_of_mono h2.mono hbad
  · replace this := this.resolve_left hbad
    cases e1 : p s <;> cases e2 : q s' <;> simp only [e1, e2, COut] at this ⊢
    · exact .inr this
    · exact h2.sim ss _ _ hl (ha.reset this.1 this.2) hb

theorem cl_alt_two {p' : P α} {q' : P β} (h1 : Cl J b V st n p q) (h2 : Cl J b V st n p' q') : Cl J b V st n (alt [p, p']) (alt [q, q']) :=
  cl_alt2 h1 h2
theorem cl_alt_three {p' p'' : P α} {q' q'' : P β} (h1 : Cl J b V st n p q) (h2 : Cl J b V st n p' q') (h3 : Cl J b V st n p'' q'') :
    Cl J b V st n (alt [p, p', p'']) (alt [q, q', q'']) := cl_alt2 h1 (cl_alt2 h2 h3)
theorem cl_ite {c d : Bool} {p' : P α} {q' : P β} (hc : c = d) (h1 : Cl J b V st n p q) (h2 : Cl J b V st n p' q') :
    Cl J b V st n (if c then p else p') (if d then q else q') := by subst hc; cases c <;> assumption

theorem bad_map {f : α → α'} {p : P α} {s : St} (h : Bad (p s)) : Bad (map f p s) := by
  unfold P.map P.bind P.pure
  cases h1 : p s <;> simp only [h1, Bad] at h ⊢ <;> exact h

theorem cl_repeatF {W : List Seg → List Seg → List α → List β → Prop} (hp : Cl J false V true n p q) (hnil : ∀ r, W [] r [] [])
    (hcons : ∀ c a a' d r as bs, V c (d ++ r) a a' → W d r as bs → W (c ++ d) r (a :: as) (a' :: bs)) :
    ∀ f f' ss s s', ss.length < n → ss.length < f → ss.length < f' → At2 J ss s s' →
      Bad (repeatF dbg p f s) ∨ COut J W false ss (repeatF dbg p f s) (repeatF dbg q f' s')
  | 0, _, _, _, _, _, h, _, _ => by omega
  | _, 0, _, _, _, _, _, h, _ => by omega
  | f + 1, f' + 1, ss, s, s', hn, hf, hf', ha => by
    have := hp.sim ss s s' hn ha (fun h => by cases h)
    by_cases hbad : Bad (p s)
    · left
      have hm := mono_repeatF (dbg := dbg) hp.mono f
      unfold repeatF
      cases h1 : p s <;> simp only [h1] at hbad ⊢ <;> try exact hbad
      split
      · exact bad_of_mono mono_assertFail hbad
      · exact bad_of_mono (mono_map hm) hbad
    · replace this := this.resolve_left hbad
      unfold repeatF
      cases h1 : p s <;> cases h2 : q s' <;> simp only [h1, h2, COut] at this ⊢
      · obtain ⟨c, r, rfl, h3, h4, h5⟩ := this
        rename_i a s1 a' s1'
        have hc := h5 trivial
        have hlen := same_length ha.at_ h3.at_
        rw [if_neg (fun h => hc (hlen.1.mp h)), if_neg (fun h => hc (hlen.2.mp h))]
        have hpos := List.length_pos_iff.mpr hc
        simp only [List.length_append] at hn hf hf'
        rcases cl_repeatF hp hnil hcons f f' r s1 s1' (by omega) (by omega) (by omega) h3 with ih | ih
        · exact .inl (bad_map ih)
        · right
          unfold P.map P.bind P.pure
          revert ih
          cases repeatF dbg p f s1 <;> cases repeatF dbg q f' s1' <;> simp only [COut] <;> try (intro h; exact h)
          rintro ⟨d, r', rfl, h6, h7, _⟩
          exact ⟨c ++ d, r', by simp, h6, hcons _ _ _ _ _ _ _ h4 h7, (fun h => by cases h)⟩
      · exact .inr ⟨[], ss, rfl, ha.reset this.1 this.2, hnil _, (fun h => by cases h)⟩

theorem cl_repeat0 {W : List Seg → List Seg → List α → List β → Prop} (hp : Cl J false V true n p q) (hnil : ∀ r, W [] r [] [])
    (hcons : ∀ c a a' d r as bs, V c (d ++ r) a a' → W d r as bs → W (c ++ d) r (a :: as) (a' :: bs)) :
    Cl J b W false n (repeat0 dbg p) (repeat0 dbg q) :=
  ⟨mono_repeat0 hp.mono, fun ss s s' hn ha _ => cl_repeatF hp hnil hcons _ _ ss s s' hn ha.at_.fuel.1 ha.at_.fuel.2 ha⟩

theorem cl_repeat1 {W : List Seg → List Seg → List α → List β → Prop} (hp : Cl J false V true n p q) (hnil : ∀ r, W [] r [] [])
    (hcons : ∀ c a a' d r as bs, V c (d ++ r) a a' → W d r as bs → W (c ++ d) r (a :: as) (a' :: bs)) :
    Cl J b W true n (repeat1 dbg p) (repeat1 dbg q) := by
  have h0 := cl_repeat0 (dbg := dbg) (b := false) hp hnil hcons
  refine ⟨mono_repeat1 hp.mono, fun ss s s' hn ha hb => ?_⟩
  clear hb
  have := hp.sim ss s s' hn ha (fun h => by cases h)
  unfold repeat1
  by_cases hbad : Bad (p s)
  · left
    cases h1 : p s <;> simp only [h1] at hbad ⊢ <;> try exact hbad
    exact bad_of_mono (mono_map h0.mono) hbad
  · replace this := this.resolve_left hbad
    cases h1 : p s <;> cases h2 : q s' <;> simp only [h1, h2, COut] at this ⊢
    · obtain ⟨c, r, rfl, h3, h4, h5⟩ := this
      rename_i a s1 a' s1'
      simp only [List.length_append] at hn
      rcases h0.sim r s1 s1' (by omega) h3 (fun h => by cases h) with ih | ih
      · exact .inl (bad_map ih)
      · right
        unfold P.map P.bind P.pure
        revert ih
        cases repeat0 dbg p s1 <;> cases repeat0 dbg q s1' <;> simp only [COut] <;> try (intro h; exact h)
        rintro ⟨d, r', rfl, h6, h7, _⟩
        exact ⟨c ++ d, r', by simp, h6, hcons _ _ _ _ _ _ _ h4 h7, fun _ => by simp [h5 trivial]⟩
    · exact .inr this

theorem cl_repeatTillF {U : List Seg → List Seg → γ → δ → Prop} {W : List Seg → List Seg → List α × γ → List β × δ → Prop} {g : P γ} {g' : P δ} {st' : Bool}
    (hp : Cl J false V true n p q) (hg : Cl J false U st' n g g')
    (hnil : ∀ c r a a', U c r a a' → W c r ([], a) ([], a'))
    (hcons : ∀ c a a' d r x y, V c (d ++ r) a a' → W d r x y → W (c ++ d) r (a :: x.1, x.2) (a' :: y.1, y.2)) :
    ∀ f f' ss s s', ss.length < n → ss.length < f → ss.length < f' → At2 J ss s s' →
      Bad (repeatTillF dbg p g f s) ∨ COut J W false ss (repeatTillF dbg p g f s) (repeatTillF dbg q g' f' s')
  | 0, _, _, _, _, _, h, _, _ => by omega
  | _, 0, _, _, _, _, _, h, _ => by omega
  | f + 1, f' + 1, ss, s, s', hn, hf, hf', ha => by
    have hm := mono_repeatTillF (dbg := dbg) hp.mono hg.mono
    rcases hg.sim ss s s' hn ha (fun h => by cases h) with h | this
    · left
      unfold repeatTillF
      cases h1 : g s <;> simp only [h1] at h ⊢ <;> try exact h
      rename_i e0 s0
      have := bad_of_mono hp.mono (s := s0.resetTo s) h
      cases h2 : p (s0.resetTo s) <;> simp only [h2] at this ⊢ <;> try exact this
      split
      · exact bad_of_mono mono_assertFail this
      · exact bad_of_mono (mono_map (hm f)) this
    · unfold repeatTillF
      cases h1 : g s <;> cases h2 : g' s' <;> simp only [h1, h2, COut] at this ⊢
      · obtain ⟨c, r, h3, h4, h5, _⟩ := this
        exact .inr ⟨c, r, h3, h4, hnil _ _ _ _ h5, (fun h => by cases h)⟩
      · rename_i e1 s0 e2 s0'
        have hat := ha.reset this.1 this.2
        rcases hp.sim ss _ _ hn hat (fun h => by cases h) with h | this
        · left
          cases h2 : p (s0.resetTo s) <;> simp only [h2] at h ⊢ <;> try exact h
          split
          · exact bad_of_mono mono_assertFail h
          · exact bad_of_mono (mono_map (hm f)) h
        · revert this
          cases h1 : p (s0.resetTo s) <;> cases h2 : q (s0'.resetTo s') <;> simp only [COut] <;> try (intro h; first | exact .inr h | exact h.elim)
          rintro ⟨c, r, rfl, h3, h4, h5⟩
          rename_i a s1 a' s1'
          have hc := h5 trivial
          have hlen := same_length ha.at_ h3.at_
          rw [if_neg (fun h => hc (hlen.1.mp h)), if_neg (fun h => hc (hlen.2.mp h))]
          have hpos := List.length_pos_iff.mpr hc
          simp only [List.length_append] at hn hf hf'
          rcases cl_repeatTillF hp hg hnil hcons f f' r s1 s1' (by omega) (by omega) (by omega) h3 with ih | ih
          · exact .inl (bad_map ih)
          · right
            unfold P.map P.bind P.pure
            revert ih
            cases repeatTillF dbg p g f s1 <;> cases repeatTillF dbg q g' f' s1' <;> simp only [COut] <;> try (intro h; exact h)
            rintro ⟨d, r', rfl, h6, h7, _⟩
            exact ⟨c ++ d, r', by simp, h6, hcons _ _ _ _ _ _ _ h4 h7, (fun h => by cases h)⟩

theorem cl_repeatTill {U : List Seg → List Seg → γ → δ → Prop} {W : List Seg → List Seg → List α × γ → List β × δ → Prop} {g : P γ} {g' : P δ} {st' : Bool}
    (hp : Cl J false V true n p q) (hg : Cl J false U st' n g g')
    (hnil : ∀ c r a a', U c r a a' → W c r ([], a) ([], a'))
    (hcons : ∀ c a a' d r x y, V c (d ++ r) a a' → W d r x y → W (c ++ d) r (a :: x.1, x.2) (a' :: y.1, y.2)) :
    Cl J b W false n (repeatTill dbg p g) (repeatTill dbg q g') :=
  ⟨mono_repeatTill hp.mono hg.mono, fun ss s s' hn ha _ => cl_repeatTillF hp hg hnil hcons _ _ ss s s' hn ha.at_.fuel.1 ha.at_.fuel.2 ha⟩

end Verif.Clean
