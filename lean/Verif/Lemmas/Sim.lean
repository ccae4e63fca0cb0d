import Verif.Lemmas.Lex
/-!
Helper lemmas: the parser on two texts that differ in names only.  A text is cut into characters and names; a name stands
for one text on the left and another one on the right.  `Sim`: two parsers do the same on both sides, and stop at the same
place between the pieces.
-/
namespace Verif.Sim
open P

/-- A character, or a name with its two texts. -/
inductive Seg where
  | ch (c : Char)
  | name (old new : Text)

/-- The text of a name. -/
def NameText (bs : Bool) (t : Text) : Prop := ∃ r, r ≠ [] ∧ t = '$' :: r ∧ ∀ c ∈ r, isIdChar c = true ∧ (bs = false → c ≠ '\\')

variable {bs : Bool}

/-- The text on the left. -/
def Seg.l : Seg → Text
  | .ch c => [c]
  | .name a _ => a
/-- The text on the right. -/
def Seg.r : Seg → Text
  | .ch c => [c]
  | .name _ b => b
/-- Both texts of a name are names. -/
def Seg.Ok (bs : Bool) : Seg → Prop
  | .ch _ => True
  | .name a b => NameText bs a ∧ NameText bs b

/-- The text on the left. -/
def lft : List Seg → Text
  | [] => []
  | x :: l => x.l ++ lft l
/-- The text on the right. -/
def rgt : List Seg → Text
  | [] => []
  | x :: l => x.r ++ rgt l
/-- All names are names. -/
def Oks (bs : Bool) (ss : List Seg) : Prop := ∀ x ∈ ss, x.Ok bs
/-- There are no names. -/
def Pl (ss : List Seg) : Prop := ∀ x ∈ ss, ∃ c, x = .ch c

theorem lft_append (a b : List Seg) : lft (a ++ b) = lft a ++ lft b := by
  induction a with
  | nil => rfl
  | cons x a ih => simp [lft, ih]
theorem rgt_append (a b : List Seg) : rgt (a ++ b) = rgt a ++ rgt b := by
  induction a with
  | nil => rfl
  | cons x a ih => simp [rgt, ih]
theorem Pl.same {ss : List Seg} (h : Pl ss) : lft ss = rgt ss := by
  induction ss with
  | nil => rfl
  | cons x ss ih =>
    obtain ⟨c, rfl⟩ := h x (.head _)
    rw [lft, rgt, ih fun y hy => h y (.tail _ hy)]; rfl
theorem Pl.nil : Pl [] := fun _ h => by cases h
theorem Pl.append {a b : List Seg} (h1 : Pl a) (h2 : Pl b) : Pl (a ++ b) := fun x hx => by
  rcases List.mem_append.mp hx with h | h
  · exact h1 x h
  · exact h2 x h
theorem Pl.one {c : Char} : Pl [.ch c] := fun x hx => by
  simp only [List.mem_singleton] at hx
  exact ⟨c, hx⟩
theorem Oks.append_left {a b : List Seg} (h : Oks bs (a ++ b)) : Oks bs a := fun x hx => h x (List.mem_append_left _ hx)
theorem Oks.append_right {a b : List Seg} (h : Oks bs (a ++ b)) : Oks bs b := fun x hx => h x (List.mem_append_right _ hx)
theorem Oks.tail {x : Seg} {l : List Seg} (h : Oks bs (x :: l)) : Oks bs l := fun y hy => h y (.tail _ hy)

theorem lft_length {ss : List Seg} (h : Oks bs ss) : ss.length ≤ (lft ss).length := by
  induction ss with
  | nil => simp
  | cons x ss ih =>
    have := ih h.tail
    have hx : 1 ≤ x.l.length := by
      cases x with
      | ch c => simp [Seg.l]
      | name a b => obtain ⟨⟨r, _, rfl, _⟩, _⟩ := h _ (.head _); simp [Seg.l]
    simp only [lft, List.length_append, List.length_cons]
    omega
theorem rgt_length {ss : List Seg} (h : Oks bs ss) : ss.length ≤ (rgt ss).length := by
  induction ss with
  | nil => simp
  | cons x ss ih =>
    have := ih h.tail
    have hx : 1 ≤ x.r.length := by
      cases x with
      | ch c => simp [Seg.r]
      | name a b => obtain ⟨_, ⟨r, _, rfl, _⟩⟩ := h _ (.head _); simp [Seg.r]
    simp only [rgt, List.length_append, List.length_cons]
    omega
theorem lft_nil {ss : List Seg} (h : Oks bs ss) : lft ss = [] ↔ ss = [] := by
  constructor
  · intro e
    have := lft_length h
    rw [e] at this
    exact List.length_eq_zero_iff.mp (Nat.le_zero.mp this)
  · rintro rfl; rfl
theorem rgt_nil {ss : List Seg} (h : Oks bs ss) : rgt ss = [] ↔ ss = [] := by
  constructor
  · intro e
    have := rgt_length h
    rw [e] at this
    exact List.length_eq_zero_iff.mp (Nat.le_zero.mp this)
  · rintro rfl; rfl

/-- The two states are at the same place. -/
structure At (bs : Bool) (ss : List Seg) (s s' : St) : Prop where
  ok : Oks bs ss
  l : s.rest = lft ss
  r : s'.rest = rgt ss
  errs : s.errs.length = s'.errs.length

theorem At.reset {ss r : List Seg} {s s' t t' : St} (h : At bs ss s s') (h2 : At bs r t t') : At bs ss (t.resetTo s) (t'.resetTo s') :=
  ⟨h.ok, h.l, h.r, h2.errs⟩
theorem At.record {ss : List Seg} {s s' : St} {e e' : Err} (h : At bs ss s s') : At bs ss (s.record e) (s'.record e') :=
  ⟨h.ok, h.l, h.r, by simp [St.record, h.errs]⟩

/-- The outcomes are the same. -/
def SimOut (bs : Bool) (V : List Seg → α → β → Prop) (st : Bool) (ss : List Seg) : Out α → Out β → Prop
  | .ok a s, .ok b s' => ∃ c r, ss = c ++ r ∧ At bs r s s' ∧ V c a b ∧ (st = true → c ≠ [])
  | .fail _ s, .fail _ s' => ∃ c r, ss = c ++ r ∧ At bs r s s'
  | .panic, .panic => True
  | _, _ => False

/-- The parsers do the same on all texts of at most `n` pieces; `st`: they consume something. -/
def Sim (bs : Bool) (V : List Seg → α → β → Prop) (st : Bool) (n : Nat) (p : P α) (q : P β) : Prop :=
  ∀ ss s s', ss.length ≤ n → At bs ss s s' → SimOut bs V st ss (p s) (q s')

variable {V : List Seg → α → β → Prop} {W : List Seg → α' → β' → Prop} {st : Bool} {n : Nat} {p : P α} {q : P β} {dbg : Bool}

theorem Sim.le {m : Nat} (h : Sim bs V st n p q) (hm : m ≤ n) : Sim bs V st m p q := fun ss s s' hs ha => h ss s s' (by omega) ha

theorem SimOut.mono {V' : List Seg → α → β → Prop} {st' : Bool} {ss : List Seg} {o : Out α} {o' : Out β} (h : SimOut bs V st ss o o')
    (hv : ∀ c a b, V c a b → V' c a b) (hs : st' = true → st = true) : SimOut bs V' st' ss o o' := by
  cases o <;> cases o' <;> simp only [SimOut] at h ⊢
  · obtain ⟨c, r, h1, h2, h3, h4⟩ := h; exact ⟨c, r, h1, h2, hv _ _ _ h3, fun h => h4 (hs h)⟩
  · exact h

theorem Sim.mono {V' : List Seg → α → β → Prop} (h : Sim bs V st n p q) (hv : ∀ c a b, V c a b → V' c a b) : Sim bs V' st n p q :=
  fun ss s s' hs ha => (h ss s s' hs ha).mono hv id
theorem Sim.weak (h : Sim bs V true n p q) : Sim bs V st n p q := fun ss s s' hs ha => (h ss s s' hs ha).mono (fun _ _ _ h => h) fun _ => rfl
theorem Sim.lax (h : Sim bs V st n p q) : Sim bs V false n p q :=
  fun ss s s' hs ha => (h ss s s' hs ha).mono (fun _ _ _ h => h) (fun h => by cases h)
/-- What is consumed is never nothing. -/
theorem Sim.strict (h : Sim bs V st n p q) (hv : ∀ c a b, V c a b → c ≠ []) : Sim bs V true n p q := fun ss s s' hs ha => by
  have := h ss s s' hs ha
  cases hp : p s <;> cases hq : q s' <;> simp only [hp, hq, SimOut] at this ⊢
  · obtain ⟨c, r, h1, h2, h3, h4⟩ := this; exact ⟨c, r, h1, h2, h3, fun _ => hv _ _ _ h3⟩
  · exact this

theorem sim_pure {a : α} {b : β} (h : V [] a b) : Sim bs V false n (pure a) (pure b) := fun ss _ _ _ ha =>
  ⟨[], ss, rfl, ha, h, (fun h => by cases h)⟩

theorem sim_fail : Sim bs V st n (P.fail) (P.fail) := fun ss _ _ _ ha => ⟨[], ss, rfl, ha⟩

theorem simOut_bind {st1 st2 : Bool} {f : α → P α'} {g : β → P β'} {ss : List Seg} {s s' : St} (hp : SimOut bs V st1 ss (p s) (q s'))
    (hf : ∀ c r a b s1 s1', ss = c ++ r → At bs r s1 s1' → V c a b → (st1 = true → c ≠ []) →
      SimOut bs (fun d x y => W (c ++ d) x y) st2 r (f a s1) (g b s1'))
    (hst : st = (st1 || st2) := by rfl) :
    SimOut bs W st ss (bind p f s) (bind q g s') := by
  unfold P.bind
  revert hp
  cases h1 : p s <;> cases h2 : q s' <;> simp only [SimOut] <;> try (intro h; first | exact h | exact h.elim)
  rintro ⟨c, r, rfl, h3, h4, h5⟩
  have := hf c r _ _ _ _ rfl h3 h4 h5
  revert this
  rename_i a s1 b s1'
  cases f a s1 <;> cases g b s1' <;> simp only [SimOut] <;> try (intro h; exact h)
  · rintro ⟨d, r', rfl, h6, h7, h8⟩
    refine ⟨c ++ d, r', by simp, h6, h7, fun hst' => ?_⟩
    rw [hst] at hst'
    rcases Bool.or_eq_true_iff.mp hst' with h | h
    · simp [h5 h]
    · simp [h8 h]
  · rintro ⟨d, r', rfl, h6⟩
    exact ⟨c ++ d, r', by simp, h6⟩

theorem sim_bind {st1 st2 : Bool} {f : α → P α'} {g : β → P β'} (hp : Sim bs V st1 n p q)
    (hf : ∀ c a b, V c a b → (st1 = true → c ≠ []) → ∀ m, m + c.length ≤ n → Sim bs (fun d x y => W (c ++ d) x y) st2 m (f a) (g b))
    (hst : st = (st1 || st2) := by rfl) :
    Sim bs W st n (bind p f) (bind q g) := fun ss s s' hs ha => by
  have := hp ss s s' hs ha
  unfold P.bind
  cases h1 : p s <;> cases h2 : q s' <;> simp only [h1, h2, SimOut] at this ⊢
  · obtain ⟨c, r, rfl, h3, h4, h5⟩ := this
    have := hf _ _ _ h4 h5 r.length (by simp only [List.length_append] at hs; omega) r _ _ (Nat.le_refl _) h3
    revert this
    rename_i a s1 b s1'
    cases f a s1 <;> cases g b s1' <;> simp only [SimOut] <;> try (intro h; exact h)
    · rintro ⟨d, r', rfl, h6, h7, h8⟩
      refine ⟨c ++ d, r', by simp, h6, h7, fun hst' => ?_⟩
      rw [hst] at hst'
      rcases Bool.or_eq_true_iff.mp hst' with h | h
      · simp [h5 h]
      · simp [h8 h]
    · rintro ⟨d, r', rfl, h6⟩
      exact ⟨c ++ d, r', by simp, h6⟩
  · exact this

theorem sim_map {f : α → α'} {g : β → β'} (hp : Sim bs V st n p q) (hf : ∀ c a b, V c a b → W c (f a) (g b)) :
    Sim bs W st n (map f p) (map g q) :=
  sim_bind (st1 := st) (st2 := false) hp (fun c a b h _ m _ => sim_pure (by simpa using hf c a b h)) (by simp)

theorem sim_void {U : List Seg → Prop} (hp : Sim bs V st n p q) (hf : ∀ c a b, V c a b → U c) : Sim bs (fun c _ _ => U c) st n (void p) (void q) :=
  sim_map hp hf

theorem sim_context {m m' : Msg} (hp : Sim bs V st n p q) : Sim bs V st n (context m p) (context m' q) := fun ss s s' hs ha => by
  have := hp ss s s' hs ha
  unfold context
  cases h1 : p s <;> cases h2 : q s' <;> simp only [h1, h2, SimOut] at this ⊢ <;> exact this

theorem sim_opt {W : List Seg → Option α → Option β → Prop} (hp : Sim bs V st n p q) (hs : ∀ c a b, V c a b → W c (some a) (some b))
    (hn : W [] none none) : Sim bs W false n (opt p) (opt q) := fun ss s s' hl ha => by
  have := hp ss s s' hl ha
  unfold opt
  cases h1 : p s <;> cases h2 : q s' <;> simp only [h1, h2, SimOut] at this ⊢
  · obtain ⟨c, r, h3, h4, h5, _⟩ := this
    exact ⟨c, r, h3, h4, hs _ _ _ h5, (fun h => by cases h)⟩
  · obtain ⟨c, r, _, h4⟩ := this
    exact ⟨[], ss, rfl, ha.reset h4, hn, (fun h => by cases h)⟩

theorem sim_peek (hp : Sim bs V st n p q) : Sim bs (fun c a b => c = [] ∧ ∃ d, V d a b) false n (peek p) (peek q) := fun ss s s' hl ha => by
  have := hp ss s s' hl ha
  unfold peek
  cases h1 : p s <;> cases h2 : q s' <;> simp only [h1, h2, SimOut] at this ⊢
  · obtain ⟨c, r, h3, h4, h5, _⟩ := this
    exact ⟨[], ss, rfl, ha.reset h4, ⟨rfl, _, h5⟩, (fun h => by cases h)⟩
  · obtain ⟨c, r, _, h4⟩ := this
    exact ⟨[], ss, rfl, ha.reset h4⟩

theorem sim_not (hp : Sim bs V st n p q) : Sim bs (fun c _ _ => c = []) false n (P.not p) (P.not q) := fun ss s s' hl ha => by
  have := hp ss s s' hl ha
  unfold P.not
  cases h1 : p s <;> cases h2 : q s' <;> simp only [h1, h2, SimOut] at this ⊢
  · obtain ⟨c, r, h3, h4, h5, _⟩ := this
    exact ⟨[], ss, rfl, ha.reset h4⟩
  · obtain ⟨c, r, _, h4⟩ := this
    exact ⟨[], ss, rfl, ha.reset h4, rfl, (fun h => by cases h)⟩

theorem sim_alt2 {p' : P α} {q' : P β} (h1 : Sim bs V st n p q) (h2 : Sim bs V st n p' q') : Sim bs V st n (alt2 p p') (alt2 q q') := fun ss s s' hl ha => by
  have := h1 ss s s' hl ha
  unfold alt2
  cases hp : p s <;> cases hq : q s' <;> simp only [hp, hq, SimOut] at this ⊢
  · exact this
  · obtain ⟨c, r, _, h4⟩ := this
    exact h2 ss _ _ hl (ha.reset h4)

theorem sim_alt_one (h : Sim bs V st n p q) : Sim bs V st n (alt [p]) (alt [q]) := h
theorem sim_alt_two {p' : P α} {q' : P β} (h1 : Sim bs V st n p q) (h2 : Sim bs V st n p' q') : Sim bs V st n (alt [p, p']) (alt [q, q']) :=
  sim_alt2 h1 h2
theorem sim_alt_three {p' p'' : P α} {q' q'' : P β} (h1 : Sim bs V st n p q) (h2 : Sim bs V st n p' q') (h3 : Sim bs V st n p'' q'') :
    Sim bs V st n (alt [p, p', p'']) (alt [q, q', q'']) := sim_alt2 h1 (sim_alt2 h2 h3)
theorem sim_alt_four {p1 p2 p3 p4 : P α} {q1 q2 q3 q4 : P β} (h1 : Sim bs V st n p1 q1) (h2 : Sim bs V st n p2 q2) (h3 : Sim bs V st n p3 q3)
    (h4 : Sim bs V st n p4 q4) : Sim bs V st n (alt [p1, p2, p3, p4]) (alt [q1, q2, q3, q4]) := sim_alt2 h1 (sim_alt2 h2 (sim_alt2 h3 h4))

theorem sim_verifyMap {f : α → Option α'} {g : β → Option β'} (hp : Sim bs V st n p q)
    (hf : ∀ c a b, V c a b → (f a = none ∧ g b = none) ∨ ∃ x y, f a = some x ∧ g b = some y ∧ W c x y) :
    Sim bs W st n (verifyMap f p) (verifyMap g q) := fun ss s s' hl ha => by
  have := hp ss s s' hl ha
  unfold verifyMap
  cases h1 : p s <;> cases h2 : q s' <;> simp only [h1, h2, SimOut] at this ⊢
  · obtain ⟨c, r, h3, h4, h5, h6⟩ := this
    rcases hf _ _ _ h5 with ⟨e1, e2⟩ | ⟨x, y, e1, e2, hw⟩
    · simp only [e1, e2]; exact ⟨[], ss, rfl, ha.reset h4⟩
    · simp only [e1, e2]; exact ⟨c, r, h3, h4, hw, h6⟩
  · exact this

theorem sim_verify {f : α → Bool} {g : β → Bool} (hp : Sim bs V st n p q) (hf : ∀ c a b, V c a b → f a = g b) :
    Sim bs V st n (verify f p) (verify g q) :=
  sim_verifyMap hp fun c a b h => by
    rw [hf c a b h]
    cases g b
    · exact .inl ⟨rfl, rfl⟩
    · exact .inr ⟨a, b, rfl, rfl, h⟩

/-- The texts of what is consumed. -/
def TV (c : List Seg) (a b : Text) : Prop := a = lft c ∧ b = rgt c

theorem sim_take (hp : Sim bs V st n p q) : Sim bs (fun c a b => TV c a b ∧ ∃ x y, V c x y) st n (take p) (take q) := fun ss s s' hl ha => by
  have := hp ss s s' hl ha
  unfold take
  cases h1 : p s <;> cases h2 : q s' <;> simp only [h1, h2, SimOut] at this ⊢
  · obtain ⟨c, r, rfl, h4, h5, h6⟩ := this
    refine ⟨c, r, rfl, h4, ⟨⟨?_, ?_⟩, _, _, h5⟩, h6⟩
    · rw [ha.l, h4.l, lft_append]; simp
    · rw [ha.r, h4.r, rgt_append]; simp
  · exact this

theorem sim_taken (hp : Sim bs V st n p q) : Sim bs TV st n (take p) (take q) := (sim_take hp).mono fun _ _ _ h => h.1

theorem sim_ite {c d : Bool} {p' : P α} {q' : P β} (hc : c = d) (h1 : Sim bs V st n p q) (h2 : Sim bs V st n p' q') :
    Sim bs V st n (if c then p else p') (if d then q else q') := by
  subst hc
  cases c
  · exact h2
  · exact h1

/-! ### Loops -/

theorem same_length {c r : List Seg} {s s' : St} (h : At bs (c ++ r) s s') {t t' : St} (h2 : At bs r t t') :
    (t.rest.length = s.rest.length ↔ c = []) ∧ (t'.rest.length = s'.rest.length ↔ c = []) := by
  rw [h.l, h.r, h2.l, h2.r, lft_append, rgt_append, List.length_append, List.length_append, ← lft_nil h.ok.append_left]
  refine ⟨⟨fun e => List.length_eq_zero_iff.mp (by omega), fun e => by rw [e]; simp⟩, ?_⟩
  rw [lft_nil h.ok.append_left, ← rgt_nil h.ok.append_left]
  exact ⟨fun e => List.length_eq_zero_iff.mp (by omega), fun e => by rw [e]; simp⟩

theorem sim_repeatF {W : List Seg → List α → List β → Prop} (hp : Sim bs V st n p q) (hnil : W [] [] [])
    (hcons : ∀ c a b d as bs, V c a b → W d as bs → W (c ++ d) (a :: as) (b :: bs)) :
    ∀ f f' ss s s', ss.length ≤ n → ss.length < f → ss.length < f' → At bs ss s s' →
      SimOut bs W false ss (repeatF dbg p f s) (repeatF dbg q f' s')
  | 0, _, _, _, _, _, h, _, _ => by omega
  | _, 0, _, _, _, _, _, h, _ => by omega
  | f + 1, f' + 1, ss, s, s', hn, hf, hf', ha => by
    have := hp ss s s' hn ha
    unfold repeatF
    cases h1 : p s <;> cases h2 : q s' <;> simp only [h1, h2, SimOut] at this ⊢
    · obtain ⟨c, r, rfl, h3, h4, h5⟩ := this
      rename_i a s1 b s1'
      have hlen := same_length ha h3
      by_cases hc : c = []
      · rw [if_pos (hlen.1.mpr hc), if_pos (hlen.2.mpr hc)]
        unfold assertFail
        cases dbg
        · exact ⟨c, r, rfl, h3⟩
        · trivial
      · rw [if_neg (fun h => hc (hlen.1.mp h)), if_neg (fun h => hc (hlen.2.mp h))]
        have hpos := List.length_pos_iff.mpr hc
        simp only [List.length_append] at hn hf hf'
        have ih := sim_repeatF hp hnil hcons f f' r s1 s1' (by omega) (by omega) (by omega) h3
        unfold P.map P.bind P.pure
        revert ih
        cases repeatF dbg p f s1 <;> cases repeatF dbg q f' s1' <;> simp only [SimOut] <;> try (intro h; exact h)
        · rintro ⟨d, r', rfl, h6, h7, _⟩
          exact ⟨c ++ d, r', by simp, h6, hcons _ _ _ _ _ _ h4 h7, (fun h => by cases h)⟩
        · rintro ⟨d, r', rfl, h6⟩
          exact ⟨c ++ d, r', by simp, h6⟩
    · obtain ⟨c, r, _, h4⟩ := this
      exact ⟨[], ss, rfl, ha.reset h4, hnil, (fun h => by cases h)⟩

theorem At.fuel {ss : List Seg} {s s' : St} (h : At bs ss s s') : ss.length < s.rest.length + 1 ∧ ss.length < s'.rest.length + 1 := by
  have := lft_length h.ok
  have := rgt_length h.ok
  rw [h.l, h.r]
  omega

theorem sim_repeat0 {W : List Seg → List α → List β → Prop} (hp : Sim bs V st n p q) (hnil : W [] [] [])
    (hcons : ∀ c a b d as bs, V c a b → W d as bs → W (c ++ d) (a :: as) (b :: bs)) :
    Sim bs W false n (repeat0 dbg p) (repeat0 dbg q) := fun ss s s' hn ha =>
  sim_repeatF hp hnil hcons _ _ ss s s' hn ha.fuel.1 ha.fuel.2 ha

theorem sim_repeat1 {W : List Seg → List α → List β → Prop} (hp : Sim bs V st n p q) (hnil : W [] [] [])
    (hcons : ∀ c a b d as bs, V c a b → W d as bs → W (c ++ d) (a :: as) (b :: bs)) :
    Sim bs W st n (repeat1 dbg p) (repeat1 dbg q) := fun ss s s' hn ha => by
  have := hp ss s s' hn ha
  unfold repeat1
  cases h1 : p s <;> cases h2 : q s' <;> simp only [h1, h2, SimOut] at this ⊢
  · obtain ⟨c, r, rfl, h3, h4, h5⟩ := this
    rename_i a s1 b s1'
    simp only [List.length_append] at hn
    have ih := sim_repeat0 (dbg := dbg) hp hnil hcons r s1 s1' (by omega) h3
    unfold P.map P.bind P.pure
    revert ih
    cases repeat0 dbg p s1 <;> cases repeat0 dbg q s1' <;> simp only [SimOut] <;> try (intro h; exact h)
    · rintro ⟨d, r', rfl, h6, h7, _⟩
      exact ⟨c ++ d, r', by simp, h6, hcons _ _ _ _ _ _ h4 h7, fun h => by simp [h5 h]⟩
    · rintro ⟨d, r', rfl, h6⟩
      exact ⟨c ++ d, r', by simp, h6⟩
  · obtain ⟨c, r, _, h4⟩ := this
    exact ⟨[], ss, rfl, ha.reset h4⟩

theorem sim_repeatTillF {U : List Seg → γ → δ → Prop} {W : List Seg → List α × γ → List β × δ → Prop} {g : P γ} {g' : P δ} {st' : Bool}
    (hp : Sim bs V st n p q) (hg : Sim bs U st' n g g')
    (hnil : ∀ c a b, U c a b → W c ([], a) ([], b))
    (hcons : ∀ c a b d x y, V c a b → W d x y → W (c ++ d) (a :: x.1, x.2) (b :: y.1, y.2)) :
    ∀ f f' ss s s', ss.length ≤ n → ss.length < f → ss.length < f' → At bs ss s s' →
      SimOut bs W false ss (repeatTillF dbg p g f s) (repeatTillF dbg q g' f' s')
  | 0, _, _, _, _, _, h, _, _ => by omega
  | _, 0, _, _, _, _, _, h, _ => by omega
  | f + 1, f' + 1, ss, s, s', hn, hf, hf', ha => by
    have := hg ss s s' hn ha
    unfold repeatTillF
    cases h1 : g s <;> cases h2 : g' s' <;> simp only [h1, h2, SimOut] at this ⊢
    · obtain ⟨c, r, h3, h4, h5, _⟩ := this
      exact ⟨c, r, h3, h4, hnil _ _ _ h5, (fun h => by cases h)⟩
    · rename_i e1 s0 e2 s0'
      obtain ⟨c0, r0, hx, h0⟩ := this
      clear hx
      have hat := ha.reset h0
      have := hp ss _ _ hn hat
      revert this
      cases h1 : p (s0.resetTo s) <;> cases h2 : q (s0'.resetTo s') <;> simp only [SimOut] <;> try (intro h; first | exact h | exact h.elim)
      · rintro ⟨c, r, rfl, h3, h4, h5⟩
        rename_i a s1 b s1'
        have hlen := same_length ha h3
        by_cases hc : c = []
        · rw [if_pos (hlen.1.mpr hc), if_pos (hlen.2.mpr hc)]
          unfold assertFail
          cases dbg
          · exact ⟨c, r, rfl, h3⟩
          · trivial
        · rw [if_neg (fun h => hc (hlen.1.mp h)), if_neg (fun h => hc (hlen.2.mp h))]
          have hpos := List.length_pos_iff.mpr hc
          simp only [List.length_append] at hn hf hf'
          have ih := sim_repeatTillF hp hg hnil hcons f f' r s1 s1' (by omega) (by omega) (by omega) h3
          unfold P.map P.bind P.pure
          revert ih
          cases repeatTillF dbg p g f s1 <;> cases repeatTillF dbg q g' f' s1' <;> simp only [SimOut] <;> try (intro h; exact h)
          · rintro ⟨d, r', rfl, h6, h7, _⟩
            exact ⟨c ++ d, r', by simp, h6, hcons _ _ _ _ _ _ h4 h7, (fun h => by cases h)⟩
          · rintro ⟨d, r', rfl, h6⟩
            exact ⟨c ++ d, r', by simp, h6⟩

theorem sim_repeatTill {U : List Seg → γ → δ → Prop} {W : List Seg → List α × γ → List β × δ → Prop} {g : P γ} {g' : P δ} {st' : Bool}
    (hp : Sim bs V st n p q) (hg : Sim bs U st' n g g')
    (hnil : ∀ c a b, U c a b → W c ([], a) ([], b))
    (hcons : ∀ c a b d x y, V c a b → W d x y → W (c ++ d) (a :: x.1, x.2) (b :: y.1, y.2)) :
    Sim bs W false n (repeatTill dbg p g) (repeatTill dbg q g') := fun ss s s' hn ha =>
  sim_repeatTillF hp hg hnil hcons _ _ ss s s' hn ha.fuel.1 ha.fuel.2 ha

end Verif.Sim
