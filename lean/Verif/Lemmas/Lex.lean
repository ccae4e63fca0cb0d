import Verif.Model.Token
import Verif.Spec.Chars
/-!
Helper lemmas: lexical parsers consume a prefix of their input, record no errors and do not run out
of fuel.
-/
namespace Verif
open P

theorem bytes_nil : bytes [] = 0 := rfl

theorem bytes_append (a b : Text) : bytes (a ++ b) = bytes a + bytes b := by
  simp [bytes, List.map_append, List.sum_append]

theorem bytes_cons (c : Char) (t : Text) : bytes (c :: t) = c.utf8Size + bytes t := by
  simp [bytes]

/-- `s'` is reached from `s` by consuming exactly the text `c`, recording nothing. -/
structure Adv (s : St) (c : Text) (s' : St) : Prop where
  rest : s.rest = c ++ s'.rest
  pos : s'.pos = s.pos + bytes c
  errs : s'.errs = s.errs

theorem Adv.nil (s : St) : Adv s [] s := ⟨by simp, by simp [bytes], rfl⟩

theorem Adv.trans {s c s1 d s2} (h1 : Adv s c s1) (h2 : Adv s1 d s2) : Adv s (c ++ d) s2 :=
  ⟨by rw [h1.rest, h2.rest]; simp, by rw [h2.pos, h1.pos, bytes_append]; omega, by rw [h2.errs, h1.errs]⟩

theorem Adv.resetTo {s c s'} (h : Adv s c s') : s'.resetTo s = s := by
  cases s; cases s'; have := h.errs; simp_all [St.resetTo]

theorem Adv.length {s c s'} (h : Adv s c s') : s.rest.length = c.length + s'.rest.length := by
  rw [h.rest]; simp

theorem Adv.taken {s c s'} (h : Adv s c s') : s.rest.take (s.rest.length - s'.rest.length) = c := by
  rw [h.rest]; simp

/-- An offset that is a character boundary of the remaining input. -/
def Within (s : St) (o : Nat) : Prop := ∃ c d, s.rest = c ++ d ∧ o = s.pos + bytes c

/-- Both ends of an error are 0 or character boundaries of the remaining input. -/
def ErrIn (s : St) (e : Err) : Prop :=
  (e.start = 0 ∨ Within s e.start) ∧ (e.stop = 0 ∨ Within s e.stop)

theorem ErrIn.new (s : St) : ErrIn s .new := ⟨.inl rfl, .inl rfl⟩

theorem Within.adv {s c s' o} (h : Adv s c s') (w : Within s' o) : Within s o := by
  obtain ⟨a, b, h1, h2⟩ := w
  exact ⟨c ++ a, b, by rw [h.rest, h1]; simp, by rw [h2, h.pos, bytes_append]; omega⟩

theorem ErrIn.adv {s c s' e} (h : Adv s c s') (w : ErrIn s' e) : ErrIn s e :=
  ⟨w.1.imp id (Within.adv h), w.2.imp id (Within.adv h)⟩

theorem Within.here {s c s'} (h : Adv s c s') : Within s s'.pos := ⟨c, s'.rest, h.rest, h.pos⟩

/-- The text contains two openings of block comments that are not closed. -/
def HasBC (t : Text) : Prop := Spec.TwiceUnclosed t

theorem HasBC.append {a b : Text} (h : HasBC b) : HasBC (a ++ b) := by
  obtain ⟨x, y, z, h, h'⟩ := h; exact ⟨a ++ x, y, z, by simp [h], h'⟩

theorem twice_step {x : Char} {t : Text} (h : Spec.TwiceUnclosed (x :: t)) (h0 : ¬ Spec.Unclosed (x :: t)) : Spec.TwiceUnclosed t := by
  obtain ⟨a, b, c, h, h1, h2⟩ := h
  cases a with
  | nil => rw [List.nil_append] at h; rw [h] at h0; exact absurd h1 h0
  | cons y a => cases h; exact ⟨a, b, c, rfl, h1, h2⟩

/-- Two openings are needed. -/
theorem twice_two {t : Text} (h : Spec.TwiceUnclosed t) : 4 ≤ t.length ∧ ['(', ';'] <:+: t.drop 2 := by
  obtain ⟨a, b, c, rfl, _, ⟨d, rfl⟩, _⟩ := h
  refine ⟨by simp; omega, ?_⟩
  match a with
  | [] => exact ⟨b, d, by simp⟩
  | [x] => exact ⟨';' :: b, d, by simp⟩
  | x :: y :: a => exact ⟨a ++ '(' :: ';' :: b, d, by simp⟩

/-- Outcome predicate for lexical parsers. -/
def LexOut (dbg : Bool) (Q : α → Text → Prop) (s : St) : Out α → Prop
  | .ok a s' => ∃ c, Adv s c s' ∧ Q a c
  | .fail e s' => ∃ c, Adv s c s' ∧ ErrIn s e
  | .panic => dbg = true ∧ HasBC s.rest
  | .oof => False

/-- A lexical parser, on inputs of at most `n` characters: consumes a prefix related to its result by
`Q`, records nothing, panics only in debug builds on texts with two unclosed block comments, and never
runs out of fuel. -/
def Lex (dbg : Bool) (n : Nat) (Q : α → Text → Prop) (p : P α) : Prop :=
  ∀ s : St, s.rest.length ≤ n → LexOut dbg Q s (p s)

variable {dbg : Bool} {n : Nat}

theorem Lex.mono {Q Q' : α → Text → Prop} {p : P α} (h : Lex dbg n Q p) (hq : ∀ a c, Q a c → Q' a c) :
    Lex dbg n Q' p := by
  intro s hs
  have := h s hs
  cases hp : p s <;> simp only [hp, LexOut] at this ⊢ <;> try exact this
  obtain ⟨c, h1, h2⟩ := this
  exact ⟨c, h1, hq _ _ h2⟩

theorem Lex.le {Q : α → Text → Prop} {p : P α} {m : Nat} (h : Lex dbg n Q p) (hm : m ≤ n) :
    Lex dbg m Q p := fun s hs => h s (by omega)

theorem lex_pure {Q : α → Text → Prop} {a : α} (h : Q a []) : Lex dbg n Q (pure a) :=
  fun s _ => ⟨[], Adv.nil s, h⟩

theorem lex_fail {Q : α → Text → Prop} : Lex dbg n Q (P.fail) :=
  fun s _ => ⟨[], Adv.nil s, ErrIn.new s⟩

theorem lex_bind' {Q : α → Text → Prop} {Q' : β → Text → Prop} {p : P α} {f : α → P β}
    (hp : Lex dbg n Q p)
    (hf : ∀ a c, Q a c → ∀ m, m + c.length ≤ n → Lex dbg m (fun b d => Q' b (c ++ d)) (f a)) :
    Lex dbg n Q' (bind p f) := by
  intro s hs
  have h := hp s hs
  unfold P.bind
  cases hps : p s <;> simp only [hps, LexOut] at h ⊢ <;> try exact h
  rename_i a s'
  obtain ⟨c, hadv, hq⟩ := h
  have hl := hadv.length
  have h2 := hf a c hq s'.rest.length (by omega) s' (by omega)
  cases hfs : f a s' <;> simp only [hfs, LexOut] at h2 ⊢ <;> try exact h2
  · obtain ⟨d, hadv', hq'⟩ := h2
    exact ⟨c ++ d, hadv.trans hadv', hq'⟩
  · obtain ⟨d, hadv', he⟩ := h2
    exact ⟨c ++ d, hadv.trans hadv', he.adv hadv⟩
  · exact ⟨h2.1, by rw [hadv.rest]; exact h2.2.append⟩

theorem lex_bind {Q : α → Text → Prop} {Q' : β → Text → Prop} {p : P α} {f : α → P β}
    (hp : Lex dbg n Q p) (hf : ∀ a c, Q a c → Lex dbg n (fun b d => Q' b (c ++ d)) (f a)) :
    Lex dbg n Q' (bind p f) :=
  lex_bind' hp fun a c h _ hm => (hf a c h).le (by omega)

theorem lex_map {Q : α → Text → Prop} {Q' : β → Text → Prop} {p : P α} {f : α → β}
    (hp : Lex dbg n Q p) (hf : ∀ a c, Q a c → Q' (f a) c) : Lex dbg n Q' (map f p) :=
  lex_bind hp fun a c h => lex_pure (by simpa using hf a c h)

theorem lex_context {Q : α → Text → Prop} {p : P α} (m : Msg) (hp : Lex dbg n Q p) :
    Lex dbg n Q (context m p) := by
  intro s hs
  have h := hp s hs
  unfold P.context
  cases hps : p s <;> simp only [hps, LexOut] at h ⊢ <;> try exact h
  obtain ⟨c, hadv, he⟩ := h
  exact ⟨c, hadv, .inr (Within.here hadv), he.2⟩

theorem lex_opt {Q : α → Text → Prop} {Q' : Option α → Text → Prop} {p : P α} (hp : Lex dbg n Q p)
    (hs : ∀ a c, Q a c → Q' (some a) c) (hn : Q' none []) : Lex dbg n Q' (opt p) := by
  intro s hs'
  have h := hp s hs'
  unfold P.opt
  cases hps : p s <;> simp only [hps, LexOut] at h ⊢ <;> try exact h
  · obtain ⟨c, hadv, hq⟩ := h
    exact ⟨c, hadv, hs _ _ hq⟩
  · obtain ⟨c, hadv, he⟩ := h
    rw [hadv.resetTo]
    exact ⟨[], Adv.nil s, hn⟩

theorem lex_peek {Q : α → Text → Prop} {p : P α} (hp : Lex dbg n Q p) :
    Lex dbg n (fun _ c => c = []) (peek p) := by
  intro s hs'
  have h := hp s hs'
  unfold P.peek
  cases hps : p s <;> simp only [hps, LexOut] at h ⊢ <;> try exact h
  · obtain ⟨c, hadv, hq⟩ := h
    rw [hadv.resetTo]
    exact ⟨[], Adv.nil s, rfl⟩
  · obtain ⟨c, hadv, he⟩ := h
    rw [hadv.resetTo]
    exact ⟨[], Adv.nil s, he⟩

theorem lex_not {Q : α → Text → Prop} {p : P α} (hp : Lex dbg n Q p) :
    Lex dbg n (fun _ c => c = []) (P.not p) := by
  intro s hs'
  have h := hp s hs'
  unfold P.not
  cases hps : p s <;> simp only [hps, LexOut] at h ⊢ <;> try exact h
  · obtain ⟨c, hadv, hq⟩ := h
    rw [hadv.resetTo]
    exact ⟨[], Adv.nil s, ErrIn.new s⟩
  · obtain ⟨c, hadv, he⟩ := h
    rw [hadv.resetTo]
    exact ⟨[], Adv.nil s, rfl⟩

theorem lex_alt2 {Q : α → Text → Prop} {p q : P α} (hp : Lex dbg n Q p) (hq : Lex dbg n Q q) :
    Lex dbg n Q (alt2 p q) := by
  intro s hs'
  have h := hp s hs'
  unfold P.alt2
  cases hps : p s <;> simp only [hps, LexOut] at h ⊢ <;> try exact h
  obtain ⟨c, hadv, he⟩ := h
  rw [hadv.resetTo]
  exact hq s hs'

theorem lex_alt {Q : α → Text → Prop} : ∀ {ps : List (P α)}, (∀ p ∈ ps, Lex dbg n Q p) →
    Lex dbg n Q (alt ps)
  | [], _ => lex_fail
  | [p], h => h p (by simp)
  | p :: q :: ps, h => lex_alt2 (h p (by simp)) (lex_alt fun r hr => h r (by simp_all))

theorem lex_verifyMap {Q : α → Text → Prop} {Q' : β → Text → Prop} {p : P α} {f : α → Option β}
    (hp : Lex dbg n Q p) (hf : ∀ a c b, Q a c → f a = some b → Q' b c) :
    Lex dbg n Q' (verifyMap f p) := by
  intro s hs'
  have h := hp s hs'
  unfold P.verifyMap
  cases hps : p s <;> simp only [hps, LexOut] at h ⊢ <;> try exact h
  rename_i a s'
  obtain ⟨c, hadv, hq⟩ := h
  cases hfa : f a <;> simp only
  · rw [hadv.resetTo]
    exact ⟨[], Adv.nil s, ErrIn.new s⟩
  · exact ⟨c, hadv, hf _ _ _ hq hfa⟩

theorem lex_verify {Q Q' : α → Text → Prop} {p : P α} {f : α → Bool}
    (hp : Lex dbg n Q p) (hf : ∀ a c, Q a c → f a = true → Q' a c) :
    Lex dbg n Q' (verify f p) :=
  lex_verifyMap hp fun a c b hq hb => by
    split at hb
    · cases hb; exact hf _ _ hq ‹_›
    · cases hb

theorem lex_take {Q : α → Text → Prop} {Q' : Text → Text → Prop} {p : P α}
    (hp : Lex dbg n Q p) (hf : ∀ a c, Q a c → Q' c c) : Lex dbg n Q' (take p) := by
  intro s hs'
  have h := hp s hs'
  unfold P.take
  cases hps : p s <;> simp only [hps, LexOut] at h ⊢ <;> try exact h
  obtain ⟨c, hadv, hq⟩ := h
  rw [hadv.taken]
  exact ⟨c, hadv, hf _ _ hq⟩

theorem lex_void {Q : α → Text → Prop} {Q' : Unit → Text → Prop} {p : P α}
    (hp : Lex dbg n Q p) (hf : ∀ a c, Q a c → Q' () c) : Lex dbg n Q' (void p) :=
  lex_map hp hf

theorem lex_any : Lex dbg n (fun a c => c = [a]) any := by
  intro s _
  unfold P.any
  cases h : s.rest with
  | nil => exact ⟨[], Adv.nil s, ErrIn.new s⟩
  | cons c cs => exact ⟨[c], ⟨by simp [h], by simp [bytes], rfl⟩, rfl⟩

theorem lex_oneOf {f : Char → Bool} : Lex dbg n (fun a c => c = [a] ∧ f a = true) (oneOf f) :=
  lex_verify lex_any fun _ _ h1 h2 => ⟨h1, h2⟩

theorem lex_noneOf {f : Char → Bool} : Lex dbg n (fun a c => c = [a] ∧ f a = false) (noneOf f) :=
  lex_verify lex_any fun _ _ h1 h2 => ⟨h1, by simpa using h2⟩

theorem lex_lit (t : Text) : Lex dbg n (fun a c => a = t ∧ c = t) (lit t) := by
  intro s _
  unfold P.lit
  split
  · rename_i h
    obtain ⟨r, hr⟩ := List.isPrefixOf_iff_prefix.mp h
    exact ⟨t, ⟨by simp [← hr], rfl, rfl⟩, rfl, rfl⟩
  · exact ⟨[], Adv.nil s, ErrIn.new s⟩

theorem lex_takeWhile0 (f : Char → Bool) :
    Lex dbg n (fun a c => a = c ∧ ∀ x ∈ c, f x = true) (takeWhile0 f) := by
  intro s _
  refine ⟨s.rest.takeWhile f, ⟨by simp [List.takeWhile_append_dropWhile], rfl, rfl⟩, rfl, ?_⟩
  intro x hx
  exact (List.all_eq_true.mp List.all_takeWhile) x hx

theorem lex_takeWhile1 (f : Char → Bool) :
    Lex dbg n (fun a c => a = c ∧ c ≠ [] ∧ ∀ x ∈ c, f x = true) (takeWhile1 f) := by
  intro s _
  have hall : ∀ x ∈ s.rest.takeWhile f, f x = true :=
    fun x hx => (List.all_eq_true.mp List.all_takeWhile) x hx
  have happ : s.rest.takeWhile f ++ s.rest.dropWhile f = s.rest := List.takeWhile_append_dropWhile
  unfold P.takeWhile1
  split
  · exact ⟨[], Adv.nil s, ErrIn.new s⟩
  · rename_i c cs h
    rw [h] at hall happ
    exact ⟨c :: cs, ⟨happ.symm, rfl, rfl⟩, rfl, by simp, hall⟩

theorem lex_eof : Lex dbg n (fun a c => a = c ∧ c = []) eof := by
  intro s _
  unfold P.eof
  split
  · exact ⟨[], Adv.nil s, rfl, rfl⟩
  · exact ⟨[], Adv.nil s, ErrIn.new s⟩

/-- Repetition of a lexical parser whose successes always consume. -/
theorem lex_repeatF {Q : α → Text → Prop} {Q' : List α → Text → Prop} {p : P α}
    (hp : Lex dbg n Q p) (hne : ∀ a c, Q a c → c ≠ [])
    (hnil : Q' [] []) (hcons : ∀ a c as d, Q a c → Q' as d → Q' (a :: as) (c ++ d)) :
    ∀ fuel s, s.rest.length ≤ n → s.rest.length < fuel → LexOut dbg Q' s (repeatF dbg p fuel s) := by
  intro fuel
  induction fuel with
  | zero => intro s _ h; omega
  | succ fuel ih =>
    intro s hs hf
    have h := hp s hs
    unfold P.repeatF
    cases hps : p s <;> simp only [hps, LexOut] at h ⊢ <;> try exact h
    · rename_i a s'
      obtain ⟨c, hadv, hq⟩ := h
      have hl := hadv.length
      have hc : 0 < c.length := List.length_pos_iff.mpr (hne _ _ hq)
      rw [if_neg (by omega)]
      have := ih s' (by omega) (by omega)
      unfold P.map P.bind
      cases hr : repeatF dbg p fuel s' <;> simp only [hr, LexOut] at this ⊢ <;> try exact this
      · obtain ⟨d, hadv', hq'⟩ := this
        exact ⟨c ++ d, hadv.trans hadv', hcons _ _ _ _ hq hq'⟩
      · obtain ⟨d, hadv', he⟩ := this
        exact ⟨c ++ d, hadv.trans hadv', he.adv hadv⟩
      · exact ⟨this.1, by rw [hadv.rest]; exact this.2.append⟩
    · obtain ⟨c, hadv, he⟩ := h
      rw [hadv.resetTo]
      exact ⟨[], Adv.nil s, hnil⟩

theorem lex_repeat0 {Q : α → Text → Prop} {Q' : List α → Text → Prop} {p : P α}
    (hp : Lex dbg n Q p) (hne : ∀ a c, Q a c → c ≠ [])
    (hnil : Q' [] []) (hcons : ∀ a c as d, Q a c → Q' as d → Q' (a :: as) (c ++ d)) :
    Lex dbg n Q' (repeat0 dbg p) :=
  fun s hs => lex_repeatF hp hne hnil hcons (s.rest.length + 1) s hs (by omega)

end Verif
