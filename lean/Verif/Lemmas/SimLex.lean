import Verif.Lemmas.Sim
/-!
Helper lemmas: the lexical parsers on two texts that differ in names only.
-/
namespace Verif.Sim
open P

variable {bs : Bool}

variable {V : List Seg → α → β → Prop} {W : List Seg → α' → β' → Prop} {st : Bool} {n : Nat} {p : P α} {q : P β} {dbg : Bool}

theorem idChar_ne {c : Char} (h : isIdChar c = true) : c ≠ '(' ∧ c ≠ ')' ∧ c ≠ ';' ∧ c ≠ '"' ∧ c ≠ '\n' ∧ c ≠ '\r' ∧ isAsciiWs c = false := by
  refine ⟨?_, ?_, ?_, ?_, ?_, ?_, ?_⟩ <;> try (rintro rfl; revert h; decide)
  unfold isAsciiWs
  simp only [Bool.or_eq_false_iff, beq_eq_false_iff_ne, ne_eq]
  refine ⟨⟨⟨⟨?_, ?_⟩, ?_⟩, ?_⟩, ?_⟩ <;> (rintro rfl; revert h; decide)

theorem head_same {ss : List Seg} (h : Oks bs ss) : (lft ss).head? = (rgt ss).head? := by
  cases ss with
  | nil => rfl
  | cons x r =>
    cases x with
    | ch c => rfl
    | name a b =>
      obtain ⟨⟨x, _, rfl, _⟩, y, _, rfl, _⟩ := h _ (.head _)
      rfl

theorem At.tail {c : Char} {r : List Seg} {x x' : Text} {p p' m m' : Nat} {e e' : List Err} (h : At bs (.ch c :: r) ⟨x, p, e⟩ ⟨x', p', e'⟩) :
    At bs r ⟨lft r, m, e⟩ ⟨rgt r, m', e'⟩ := ⟨h.ok.tail, rfl, rfl, h.errs⟩

/-- The rest of the pieces, at whatever byte offsets. -/
theorem At.rest {c r : List Seg} {s s' : St} {m m' : Nat} (h : At bs (c ++ r) s s') : At bs r ⟨lft r, m, s.errs⟩ ⟨rgt r, m', s'.errs⟩ :=
  ⟨h.ok.append_right, rfl, rfl, h.errs⟩

theorem sim_oneOf {f : Char → Bool} (hf : f '$' = false) :
    Sim bs (fun c a b => a = b ∧ c = [.ch a] ∧ f a = true) true n (oneOf f) (oneOf f) := fun ss s s' _ ha => by
  obtain ⟨x, p, e⟩ := s
  obtain ⟨x', p', e'⟩ := s'
  obtain rfl : x = lft ss := ha.l
  obtain rfl : x' = rgt ss := ha.r
  cases ss with
  | nil => exact ⟨[], [], rfl, ha⟩
  | cons y r =>
    cases y with
    | ch c =>
      simp only [oneOf, verify, verifyMap, any, lft, rgt, Seg.l, Seg.r, List.cons_append, List.nil_append]
      cases hc : f c
      · exact ⟨[], _, rfl, ha⟩
      · exact ⟨[.ch c], r, rfl, ha.tail, ⟨rfl, rfl, hc⟩, fun _ => by simp⟩
    | name a b =>
      obtain ⟨⟨x, _, rfl, _⟩, y, _, rfl, _⟩ := ha.ok _ (.head _)
      simp only [oneOf, verify, verifyMap, any, lft, rgt, Seg.l, Seg.r, List.cons_append, hf]
      exact ⟨[], _, rfl, ha⟩

theorem sim_peekAny : Sim bs (fun c a b => c = [] ∧ a = b) false n (peek any) (peek any) := fun ss s s' _ ha => by
  have := head_same ha.ok
  rw [← ha.l, ← ha.r] at this
  unfold P.peek any
  cases h1 : s.rest <;> cases h2 : s'.rest <;> simp only [h1, h2, List.head?_nil, List.head?_cons] at this <;> try (cases this; done)
  · exact ⟨[], ss, rfl, ⟨ha.ok, by simpa [St.resetTo] using ha.l, by simpa [St.resetTo] using ha.r, ha.errs⟩⟩
  · cases this
    exact ⟨[], ss, rfl, ⟨ha.ok, ha.l, ha.r, ha.errs⟩, ⟨rfl, rfl⟩, (fun h => by cases h)⟩

/-- Looking at the character after something. -/
theorem sim_peekThenAny (hp : Sim bs V st n p q) :
    Sim bs (fun c a b => c = [] ∧ a = b) false n (peek (bind p fun _ => any)) (peek (bind q fun _ => any)) := fun ss s s' hs ha => by
  have := hp ss s s' hs ha
  unfold P.peek P.bind
  revert this
  cases h1 : p s <;> cases h2 : q s' <;> simp only [SimOut] <;> try (intro h; first | exact h | exact h.elim)
  · rename_i a s1 b s1'
    rintro ⟨c, r, rfl, h3, _, _⟩
    have := head_same h3.ok
    rw [← h3.l, ← h3.r] at this
    unfold any
    cases h5 : s1.rest <;> cases h6 : s1'.rest <;> simp only [h5, h6, List.head?_nil, List.head?_cons] at this <;> try (cases this; done)
    · exact ⟨[], _, rfl, ha.reset h3⟩
    · cases this
      exact ⟨[], _, rfl, ⟨ha.ok, ha.l, ha.r, h3.errs⟩, ⟨rfl, rfl⟩, (fun h => by cases h)⟩
  · rintro ⟨c, r, _, h3⟩
    exact ⟨[], _, rfl, ha.reset h3⟩

theorem sim_peekNone {f : Char → Bool} : Sim bs (fun c _ _ => c = []) false n (peek (noneOf f)) (peek (noneOf f)) := fun ss s s' _ ha => by
  have := head_same ha.ok
  rw [← ha.l, ← ha.r] at this
  unfold P.peek noneOf verify verifyMap any
  cases h1 : s.rest <;> cases h2 : s'.rest <;> simp only [h1, h2, List.head?_nil, List.head?_cons] at this <;> try (cases this; done)
  · exact ⟨[], ss, rfl, ⟨ha.ok, by simpa [St.resetTo] using ha.l, by simpa [St.resetTo] using ha.r, ha.errs⟩⟩
  · cases this
    rename_i c _ _
    cases hc : f c <;> simp only [hc, Bool.not_false, Bool.not_true, Bool.false_eq_true, if_true, if_false]
    · exact ⟨[], ss, rfl, ⟨ha.ok, ha.l, ha.r, ha.errs⟩, rfl, (fun h => by cases h)⟩
    · exact ⟨[], ss, rfl, ⟨ha.ok, ha.l, ha.r, ha.errs⟩⟩

theorem lit_split : ∀ {t : Text} {ss : List Seg}, '$' ∉ t → Oks bs ss →
    (t.isPrefixOf (lft ss) = t.isPrefixOf (rgt ss)) ∧ (t.isPrefixOf (lft ss) = true → ∃ c r, ss = c ++ r ∧ Pl c ∧ lft c = t)
  | [], ss, _, _ => ⟨by simp, fun _ => ⟨[], ss, rfl, Pl.nil, rfl⟩⟩
  | x :: t, [], _, _ => ⟨rfl, fun h => by cases h⟩
  | x :: t, .ch c :: r, ht, ho => by
    obtain ⟨h1, h2⟩ := lit_split (t := t) (ss := r) (fun h => ht (.tail _ h)) ho.tail
    simp only [lft, rgt, Seg.l, Seg.r, List.cons_append, List.nil_append, List.isPrefixOf, Bool.and_eq_true, beq_iff_eq]
    refine ⟨by rw [h1], ?_⟩
    rintro ⟨rfl, h⟩
    obtain ⟨c, r', rfl, h3, h4⟩ := h2 h
    exact ⟨.ch x :: c, r', rfl, Pl.one.append h3, by simp [lft, Seg.l, h4]⟩
  | x :: t, .name a b :: r, ht, ho => by
    obtain ⟨⟨y, _, rfl, _⟩, z, _, rfl, _⟩ := ho _ (.head _)
    have : (x == '$') = false := by
      simp only [beq_eq_false_iff_ne, ne_eq]
      rintro rfl
      exact ht (.head _)
    simp [lft, rgt, Seg.l, Seg.r, List.isPrefixOf, this]

theorem sim_lit {t : Text} (ht : '$' ∉ t) (hne : t ≠ [] := by simp) :
    Sim bs (fun c a b => Pl c ∧ lft c = t ∧ a = t ∧ b = t) true n (lit t) (lit t) := fun ss s s' _ ha => by
  obtain ⟨h1, h2⟩ := lit_split ht ha.ok
  unfold lit
  rw [ha.l, ha.r, ← h1]
  cases hp : t.isPrefixOf (lft ss)
  · exact ⟨[], ss, rfl, ha⟩
  · obtain ⟨c, r, rfl, h3, h4⟩ := h2 hp
    refine ⟨c, r, rfl, ⟨ha.ok.append_right, ?_, ?_, ha.errs⟩, ⟨h3, h4, rfl, rfl⟩, fun _ => ?_⟩
    · simp [lft_append, ← h4]
    · have : t.length = (rgt c).length := by rw [← h4, h3.same]
      simp [rgt_append, this]
    · rintro rfl
      exact hne h4.symm

/-- A class of characters that has all those of a name, or not the first one. -/
def Uni (f : Char → Bool) : Prop := f '$' = false ∨ ∀ c, isIdChar c = true → f c = true

theorem takeWhile_all {f : Char → Bool} : ∀ {a t : Text}, (∀ c ∈ a, f c = true) →
    (a ++ t).takeWhile f = a ++ t.takeWhile f ∧ (a ++ t).dropWhile f = t.dropWhile f
  | [], _, _ => ⟨rfl, rfl⟩
  | c :: a, t, h => by
    obtain ⟨h1, h2⟩ := takeWhile_all (a := a) (t := t) fun c hc => h c (.tail _ hc)
    simp [h c (.head _), h1, h2]

theorem NameText.idChars {t : Text} (h : NameText bs t) : ∀ c ∈ t, isIdChar c = true := by
  obtain ⟨r, _, rfl, hr⟩ := h
  intro c hc
  rcases List.mem_cons.mp hc with rfl | hc
  · decide
  · exact (hr c hc).1

theorem takeWhile_split {f : Char → Bool} (hf : Uni f) : ∀ {ss : List Seg}, Oks bs ss →
    ∃ c r, ss = c ++ r ∧ (lft ss).takeWhile f = lft c ∧ (lft ss).dropWhile f = lft r ∧
      (rgt ss).takeWhile f = rgt c ∧ (rgt ss).dropWhile f = rgt r ∧ (f '$' = false → Pl c)
  | [], _ => ⟨[], [], rfl, rfl, rfl, rfl, rfl, fun _ => Pl.nil⟩
  | .ch x :: ss, ho => by
    cases hx : f x
    · exact ⟨[], .ch x :: ss, rfl, by simp [lft, Seg.l, hx], by simp [lft, Seg.l, hx], by simp [rgt, Seg.r, hx], by simp [rgt, Seg.r, hx], fun _ => Pl.nil⟩
    · obtain ⟨c, r, rfl, h1, h2, h3, h4, h5⟩ := takeWhile_split hf ho.tail
      exact ⟨.ch x :: c, r, rfl, by simp [lft, Seg.l, hx, h1], by simp [lft, Seg.l, hx, h2], by simp [rgt, Seg.r, hx, h3],
        by simp [rgt, Seg.r, hx, h4], fun h => Pl.one.append (h5 h)⟩
  | .name a b :: ss, ho => by
    have hn := ho _ (.head _)
    rcases hf with hf | hf
    · obtain ⟨⟨y, _, rfl, _⟩, z, _, rfl, _⟩ := hn
      exact ⟨[], _, rfl, by simp [lft, Seg.l, hf], by simp [lft, Seg.l, hf], by simp [rgt, Seg.r, hf], by simp [rgt, Seg.r, hf], fun _ => Pl.nil⟩
    · obtain ⟨c, r, rfl, h1, h2, h3, h4, h5⟩ := takeWhile_split (.inr hf) ho.tail
      have h6 := takeWhile_all (f := f) (a := a) (t := lft (c ++ r)) fun x hx => hf x (hn.1.idChars x hx)
      have h7 := takeWhile_all (f := f) (a := b) (t := rgt (c ++ r)) fun x hx => hf x (hn.2.idChars x hx)
      refine ⟨.name a b :: c, r, rfl, ?_, ?_, ?_, ?_, fun h => ?_⟩
      · simp only [lft, Seg.l]; rw [h6.1, h1]
      · simp only [lft, Seg.l]; rw [h6.2, h2]
      · simp only [rgt, Seg.r]; rw [h7.1, h3]
      · simp only [rgt, Seg.r]; rw [h7.2, h4]
      · rw [hf _ (by decide)] at h; cases h

theorem sim_takeWhile0 {f : Char → Bool} (hf : Uni f) :
    Sim bs (fun c a b => TV c a b ∧ (f '$' = false → Pl c)) false n (takeWhile0 f) (takeWhile0 f) := fun ss s s' _ ha => by
  obtain ⟨c, r, h0, h1, h2, h3, h4, h5⟩ := takeWhile_split hf ha.ok
  have ha' := ha
  rw [h0] at ha'
  unfold takeWhile0
  rw [ha.l, ha.r, h1, h2, h3, h4]
  exact ⟨c, r, h0, ha'.rest, ⟨⟨rfl, rfl⟩, h5⟩, (fun h => by cases h)⟩

theorem sim_takeWhile1 {f : Char → Bool} (hf : Uni f) :
    Sim bs (fun c a b => TV c a b ∧ (f '$' = false → Pl c)) true n (takeWhile1 f) (takeWhile1 f) := fun ss s s' _ ha => by
  obtain ⟨c, r, h0, h1, h2, h3, h4, h5⟩ := takeWhile_split hf ha.ok
  have ha' := ha
  rw [h0] at ha'
  have hl := lft_nil ha'.ok.append_left
  have hr := rgt_nil ha'.ok.append_left
  unfold takeWhile1
  rw [ha.l, ha.r, h1, h2, h3, h4]
  by_cases hc : c = []
  · subst hc
    exact ⟨[], ss, rfl, ha⟩
  · cases hlc : lft c with
    | nil => exact absurd (hl.mp hlc) hc
    | cons x xs =>
      cases hrc : rgt c with
      | nil => exact absurd (hr.mp hrc) hc
      | cons y ys => exact ⟨c, r, h0, ha'.rest, ⟨⟨hlc.symm, hrc.symm⟩, h5⟩, fun _ => hc⟩

theorem uni_id : Uni isIdChar := .inr fun _ h => h

/-- A dollar sign and what may follow it. -/
theorem sim_dollar1 : Sim bs (fun _ _ _ => True) true n (bind (lit ['$']) fun _ => takeWhile1 isIdChar) (bind (lit ['$']) fun _ => takeWhile1 isIdChar) :=
  fun ss s s' hs ha => by
  obtain ⟨x, p, e⟩ := s
  obtain ⟨x', p', e'⟩ := s'
  obtain rfl : x = lft ss := ha.l
  obtain rfl : x' = rgt ss := ha.r
  cases ss with
  | nil => exact ⟨[], [], rfl, ha⟩
  | cons y r =>
    cases y with
    | ch c =>
      simp only [P.bind, lit, lft, rgt, Seg.l, Seg.r, List.cons_append, List.nil_append, List.isPrefixOf, Bool.and_true]
      cases hc : ('$' == c)
      · exact ⟨[], _, rfl, ha⟩
      · have := sim_takeWhile1 (n := n) uni_id r ⟨lft r, p + bytes ['$'], e⟩ ⟨rgt r, p' + bytes ['$'], e'⟩ (by simp at hs; omega) ha.tail
        simp only [if_true, List.drop, List.length_singleton]
        revert this
        cases takeWhile1 isIdChar ⟨lft r, p + bytes ['$'], e⟩ <;> cases takeWhile1 isIdChar ⟨rgt r, p' + bytes ['$'], e'⟩ <;>
          simp only [SimOut] <;> try (intro h; exact h)
        · rintro ⟨c', r', rfl, h1, _, _⟩
          exact ⟨.ch c :: c', r', rfl, h1, trivial, fun _ => by simp⟩
        · rintro ⟨c', r', rfl, h1⟩
          exact ⟨.ch c :: c', r', rfl, h1⟩
    | name a b =>
      obtain ⟨⟨y, hy, rfl, hy'⟩, z, hz, rfl, hz'⟩ := ha.ok _ (.head _)
      obtain ⟨c, r', rfl, h1, h2, h3, h4, _⟩ := takeWhile_split uni_id ha.ok.tail
      have h5 := takeWhile_all (f := isIdChar) (a := y) (t := lft (c ++ r')) fun x hx => (hy' x hx).1
      have h6 := takeWhile_all (f := isIdChar) (a := z) (t := rgt (c ++ r')) fun x hx => (hz' x hx).1
      simp only [P.bind, lit, lft, rgt, Seg.l, Seg.r, List.cons_append, List.isPrefixOf, Bool.and_true, beq_self_eq_true, if_true,
        List.length_singleton, List.drop, takeWhile1, h5.1, h5.2, h6.1, h6.2, h1, h2, h3, h4]
      cases y with
      | nil => exact absurd rfl hy
      | cons y0 y =>
        cases z with
        | nil => exact absurd rfl hz
        | cons z0 z =>
          refine ⟨.name _ _ :: c, r', rfl, ⟨?_, rfl, rfl, ha.errs⟩, trivial, fun _ => by simp⟩
          exact ha.ok.tail.append_right

theorem sim_dollar0 : Sim bs (fun _ _ _ => True) true n (bind (lit ['$']) fun _ => takeWhile0 isIdChar) (bind (lit ['$']) fun _ => takeWhile0 isIdChar) :=
  fun ss s s' hs ha => by
  obtain ⟨x, p, e⟩ := s
  obtain ⟨x', p', e'⟩ := s'
  obtain rfl : x = lft ss := ha.l
  obtain rfl : x' = rgt ss := ha.r
  cases ss with
  | nil => exact ⟨[], [], rfl, ha⟩
  | cons y r =>
    cases y with
    | ch c =>
      simp only [P.bind, lit, lft, rgt, Seg.l, Seg.r, List.cons_append, List.nil_append, List.isPrefixOf, Bool.and_true]
      cases hc : ('$' == c)
      · exact ⟨[], _, rfl, ha⟩
      · have := sim_takeWhile0 (n := n) uni_id r ⟨lft r, p + bytes ['$'], e⟩ ⟨rgt r, p' + bytes ['$'], e'⟩ (by simp at hs; omega) ha.tail
        simp only [if_true, List.drop, List.length_singleton]
        revert this
        cases takeWhile0 isIdChar ⟨lft r, p + bytes ['$'], e⟩ <;> cases takeWhile0 isIdChar ⟨rgt r, p' + bytes ['$'], e'⟩ <;>
          simp only [SimOut] <;> try (intro h; exact h)
        · rintro ⟨c', r', rfl, h1, _, _⟩
          exact ⟨.ch c :: c', r', rfl, h1, trivial, fun _ => by simp⟩
        · rintro ⟨c', r', rfl, h1⟩
          exact ⟨.ch c :: c', r', rfl, h1⟩
    | name a b =>
      obtain ⟨⟨y, hy, rfl, hy'⟩, z, hz, rfl, hz'⟩ := ha.ok _ (.head _)
      obtain ⟨c, r', rfl, h1, h2, h3, h4, _⟩ := takeWhile_split uni_id ha.ok.tail
      have h5 := takeWhile_all (f := isIdChar) (a := y) (t := lft (c ++ r')) fun x hx => (hy' x hx).1
      have h6 := takeWhile_all (f := isIdChar) (a := z) (t := rgt (c ++ r')) fun x hx => (hz' x hx).1
      simp only [P.bind, lit, lft, rgt, Seg.l, Seg.r, List.cons_append, List.isPrefixOf, Bool.and_true, beq_self_eq_true, if_true,
        List.length_singleton, List.drop, takeWhile0, h5.1, h5.2, h6.1, h6.2, h1, h2, h3, h4]
      refine ⟨.name _ _ :: c, r', rfl, ⟨?_, rfl, rfl, ha.errs⟩, trivial, fun _ => by simp⟩
      exact ha.ok.tail.append_right

/-! ### Words -/

theorem sim_word : Sim bs TV true n word word :=
  sim_taken (V := fun _ _ _ => True) (sim_bind (st1 := true) (st2 := false) (sim_oneOf (by decide)) fun _ _ _ _ _ _ _ =>
    (sim_takeWhile0 uni_id).mono fun _ _ _ _ => trivial)

theorem mem_of_name {c : List Seg} (h : ¬ Pl c) (ho : Oks bs c) : '$' ∈ lft c ∧ '$' ∈ rgt c := by
  induction c with
  | nil => exact absurd Pl.nil h
  | cons x c ih =>
    cases x with
    | ch y =>
      have := ih (fun hc => h (Pl.one.append hc)) ho.tail
      exact ⟨List.mem_append_right _ this.1, List.mem_append_right _ this.2⟩
    | name a b =>
      obtain ⟨⟨y, _, rfl, _⟩, z, _, rfl, _⟩ := ho _ (.head _)
      exact ⟨.head _, .head _⟩

/-- A text that holds no dollar sign is a text without names. -/
theorem same_of_plain {c : List Seg} {a b : Text} (h : TV c a b) (ho : Oks bs c) : a = b ∨ ('$' ∈ a ∧ '$' ∈ b) := by
  by_cases hp : Pl c
  · exact .inl (h.1.trans (hp.same.trans h.2.symm))
  · rw [h.1, h.2]; exact .inr (mem_of_name hp ho)

theorem beq_same {a b kw : Text} (h : a = b ∨ ('$' ∈ a ∧ '$' ∈ b)) (hk : '$' ∉ kw) : (a == kw) = (b == kw) := by
  rcases h with rfl | ⟨h1, h2⟩
  · rfl
  · have e1 : (a == kw) = false := beq_eq_false_iff_ne.mpr (fun e => hk (e ▸ h1))
    have e2 : (b == kw) = false := beq_eq_false_iff_ne.mpr (fun e => hk (e ▸ h2))
    rw [e1, e2]

/-- Words: the same, or both hold a dollar sign. -/
def WV (c : List Seg) (a b : Text) : Prop := TV c a b ∧ (a = b ∨ ('$' ∈ a ∧ '$' ∈ b))

theorem sim_ok (h : Sim bs V st n p q) : Sim bs (fun c a b => V c a b ∧ Oks bs c) st n p q := fun ss s s' hs ha => by
  have := h ss s s' hs ha
  revert this
  cases p s <;> cases q s' <;> simp only [SimOut] <;> try (intro h; exact h)
  rintro ⟨c, r, rfl, h1, h2, h3⟩
  exact ⟨c, r, rfl, h1, ⟨h2, ha.ok.append_left⟩, h3⟩

theorem sim_words : Sim bs WV true n word word := (sim_ok sim_word).mono fun _ _ _ h => ⟨h.1, same_of_plain h.1 h.2⟩

theorem WV.beq {c : List Seg} {a b kw : Text} (h : WV c a b) (hk : '$' ∉ kw) : (a == kw) = (b == kw) := beq_same h.2 hk

theorem WV.any {c : List Seg} {a b : Text} {l : List Text} (h : WV c a b) (hk : ∀ x ∈ l, '$' ∉ x) :
    (l.any fun x => a == x) = (l.any fun x => b == x) := by
  induction l with
  | nil => rfl
  | cons x l ih => rw [List.any_cons, List.any_cons, h.beq (hk x (.head _)), ih fun y hy => hk y (.tail _ hy)]

/-! ### Strings -/

theorem takeEscaped_skip : ∀ (x : Text) (f : Nat) (t : Text) (p : Nat) (e : List Err), (∀ c ∈ x, isStrNormal c = true) →
    ∃ p', takeEscapedF (x.length + f) ⟨x ++ t, p, e⟩ = takeEscapedF f ⟨t, p', e⟩
  | [], f, t, p, e, _ => ⟨p, by simp⟩
  | c :: x, f, t, p, e, h => by
    obtain ⟨p', h1⟩ := takeEscaped_skip x f t (p + c.utf8Size) e fun y hy => h y (.tail _ hy)
    refine ⟨p', ?_⟩
    rw [← h1, List.length_cons, show x.length + 1 + f = (x.length + f) + 1 by omega]
    simp [takeEscapedF, h c (.head _), P.bind, any]

theorem NameText.normal {t : Text} (h : NameText false t) : ∀ c ∈ t, isStrNormal c = true := by
  obtain ⟨r, _, rfl, hr⟩ := h
  intro c hc
  rcases List.mem_cons.mp hc with rfl | hc
  · decide
  · have h1 := hr c hc
    have h2 := idChar_ne h1.1
    simp [isStrNormal, h2.2.2.2.1, h2.2.2.2.2.1, h2.2.2.2.2.2.1, h1.2 rfl]

theorem SimOut.prepend {ss c : List Seg} {o : Out α} {o' : Out β} (h : SimOut bs (fun _ _ _ => True) false ss o o') :
    SimOut bs (fun _ _ _ => True) false (c ++ ss) o o' := by
  revert h
  cases o <;> cases o' <;> simp only [SimOut] <;> try (intro h; exact h)
  · rintro ⟨d, r, rfl, h1, _, _⟩
    exact ⟨c ++ d, r, by simp, h1, trivial, (fun h => by cases h)⟩
  · rintro ⟨d, r, rfl, h1⟩
    exact ⟨c ++ d, r, by simp, h1⟩

theorem sim_takeEscapedF : ∀ (k : Nat) (ss : List Seg) (f f' : Nat) (s s' : St), ss.length ≤ k → At false ss s s' →
    (lft ss).length < f → (rgt ss).length < f' → SimOut false (fun _ _ _ => True) false ss (takeEscapedF f s) (takeEscapedF f' s') := by
  intro k
  induction k with
  | zero =>
    intro ss f f' s s' hk ha hf hf'
    obtain rfl := List.length_eq_zero_iff.mp (Nat.le_zero.mp hk)
    obtain ⟨x, p, e⟩ := s
    obtain ⟨x', p', e'⟩ := s'
    obtain rfl : x = _ := ha.l
    obtain rfl : x' = _ := ha.r
    obtain ⟨f, rfl⟩ := Nat.exists_eq_add_of_lt hf
    obtain ⟨f', rfl⟩ := Nat.exists_eq_add_of_lt hf'
    exact ⟨[], [], rfl, ha, trivial, (fun h => by cases h)⟩
  | succ k ih =>
    intro ss f f' s s' hk ha hf hf'
    obtain ⟨x, p, e⟩ := s
    obtain ⟨x', p', e'⟩ := s'
    obtain rfl : x = _ := ha.l
    obtain rfl : x' = _ := ha.r
    cases ss with
    | nil =>
      obtain ⟨f, rfl⟩ := Nat.exists_eq_add_of_lt hf
      obtain ⟨f', rfl⟩ := Nat.exists_eq_add_of_lt hf'
      exact ⟨[], [], rfl, ha, trivial, (fun h => by cases h)⟩
    | cons y r =>
      simp only [List.length_cons] at hk
      cases y with
      | ch c =>
        simp only [lft, rgt, Seg.l, Seg.r, List.cons_append, List.nil_append, List.length_cons] at hf hf'
        obtain ⟨f, rfl⟩ : ∃ g, f = g + 1 := ⟨f - 1, by omega⟩
        obtain ⟨f', rfl⟩ : ∃ g, f' = g + 1 := ⟨f' - 1, by omega⟩
        simp only [lft, rgt, Seg.l, Seg.r, List.cons_append, List.nil_append, takeEscapedF]
        cases hn : isStrNormal c
        · simp only [Bool.false_eq_true, if_false]
          cases hb : (c == '\\')
          · exact ⟨[], _, rfl, ha, trivial, (fun h => by cases h)⟩
          · simp only [if_true]
            refine SimOut.prepend (c := [.ch c]) ?_
            have har := ha.tail (m := p + c.utf8Size) (m' := p' + c.utf8Size)
            show SimOut false _ _ _ (bind strEscape _ _) (bind strEscape _ _)
            cases r with
            | nil => exact ⟨[], [], rfl, har⟩
            | cons z r =>
              cases z with
              | ch d =>
                simp only [lft, rgt, Seg.l, Seg.r, List.cons_append, List.nil_append, List.length_cons] at hf hf' hk
                refine simOut_bind (st1 := true) (st2 := false) (V := fun _ _ _ => True) (W := fun _ _ _ => True) (st := true) ?_
                  (fun c' r' _ _ s1 s1' h0 h1 _ hc => ?_) |>.mono (fun _ _ _ h => h) (fun h => by cases h)
                · unfold strEscape
                  simp only [P.bind, any, lft, rgt, Seg.l, Seg.r, List.cons_append, List.nil_append]
                  have har2 := har.tail (m := p + c.utf8Size + d.utf8Size) (m' := p' + c.utf8Size + d.utf8Size)
                  cases hu : (d == 'u')
                  · exact ⟨[.ch d], r, rfl, har2, trivial, fun _ => by simp⟩
                  · have := sim_bind (bs := false) (n := r.length) (W := fun _ _ _ => True) (st1 := true) (st2 := false) (sim_lit (t := ['{']) (by decide)) (g := fun _ => bind (takeWhile0 isHex) fun _ => void (lit ['}'])) (f := fun _ => bind (takeWhile0 isHex) fun _ => void (lit ['}'])) fun _ _ _ _ _ m _ =>
                      (sim_bind (V := fun c a b => TV c a b ∧ (isHex '$' = false → Pl c)) (W := fun _ _ _ => True) (st1 := false) (st2 := true) (sim_takeWhile0 (.inl (by decide))) fun _ _ _ _ _ m _ =>
                        sim_map (W := fun _ _ _ => True) (sim_lit (t := ['}']) (by decide)) (fun _ _ _ _ => trivial)).lax
                    have := this r _ _ (Nat.le_refl _) har2
                    simp only [if_true]
                    show SimOut false _ _ _ (bind (lit ['{']) _ _) (bind (lit ['{']) _ _)
                    revert this
                    generalize bind (lit ['{']) (fun _ => bind (takeWhile0 isHex) fun _ => void (lit ['}'])) _ = o
                    generalize bind (lit ['{']) (fun _ => bind (takeWhile0 isHex) fun _ => void (lit ['}'])) _ = o'
                    cases o <;> cases o' <;> simp only [SimOut] <;> try (intro h; exact h)
                    · rintro ⟨c1, r1, rfl, h1, _, _⟩
                      exact ⟨.ch d :: c1, r1, rfl, h1, trivial, fun _ => by simp⟩
                    · rintro ⟨c1, r1, rfl, h1⟩
                      exact ⟨.ch d :: c1, r1, rfl, h1⟩
                · have hc' := List.length_pos_iff.mpr (hc rfl)
                  have hlen := congrArg List.length h0
                  have hl := congrArg (fun l => (lft l).length) h0
                  have hr := congrArg (fun l => (rgt l).length) h0
                  simp only [List.length_cons, List.length_append, lft_append, rgt_append, lft, rgt, Seg.l, Seg.r, List.length_singleton, List.length_nil] at hlen hl hr
                  have o1 := lft_length (h0 ▸ har.ok : Oks false (c' ++ r')).append_left
                  have o2 := rgt_length (h0 ▸ har.ok : Oks false (c' ++ r')).append_left
                  exact ih r' f f' s1 s1' (by omega) h1 (by omega) (by omega)
              | name a b =>
                have hab := ha.ok _ (.tail _ (.head _))
                obtain ⟨⟨y, hy, rfl, hy'⟩, z, hz, rfl, hz'⟩ := hab
                have hny := NameText.normal ⟨y, hy, rfl, hy'⟩
                have hnz := NameText.normal ⟨z, hz, rfl, hz'⟩
                simp only [lft, rgt, Seg.l, Seg.r, List.cons_append, List.length_cons, List.length_append] at hf hf' hk
                simp only [lft, rgt, Seg.l, Seg.r, List.cons_append, P.bind, strEscape, any,
                  show (('$' : Char) == 'u') = false by decide, Bool.false_eq_true, if_false, P.pure]
                obtain ⟨f, rfl⟩ : ∃ g, f = y.length + g := ⟨f - y.length, by omega⟩
                obtain ⟨f', rfl⟩ : ∃ g, f' = z.length + g := ⟨f' - z.length, by omega⟩
                obtain ⟨q, hq⟩ := takeEscaped_skip y f (lft r) (p + c.utf8Size + ('$' : Char).utf8Size) e fun c hc => hny c (.tail _ hc)
                obtain ⟨q', hq'⟩ := takeEscaped_skip z f' (rgt r) (p' + c.utf8Size + ('$' : Char).utf8Size) e' fun c hc => hnz c (.tail _ hc)
                rw [hq, hq']
                refine SimOut.prepend (c := [_]) (ih r f f' _ _ (by omega) ⟨har.ok.tail, rfl, rfl, har.errs⟩ (by omega) (by omega))
        · simp only [if_true, P.bind, any]
          exact SimOut.prepend (c := [.ch c]) (ih r f f' _ _ (by omega) ha.tail (by omega) (by omega))
      | name a b =>
        obtain ⟨h1, h2⟩ := ha.ok _ (.head _)
        simp only [lft, rgt, Seg.l, Seg.r, List.length_append] at hf hf'
        obtain ⟨f, rfl⟩ : ∃ g, f = a.length + g := ⟨f - a.length, by omega⟩
        obtain ⟨f', rfl⟩ : ∃ g, f' = b.length + g := ⟨f' - b.length, by omega⟩
        obtain ⟨q, hq⟩ := takeEscaped_skip a f (lft r) p e h1.normal
        obtain ⟨q', hq'⟩ := takeEscaped_skip b f' (rgt r) p' e' h2.normal
        simp only [lft, rgt, Seg.l, Seg.r]
        rw [hq, hq']
        exact SimOut.prepend (c := [_]) (ih r f f' _ _ (by omega) ⟨ha.ok.tail, rfl, rfl, ha.errs⟩ (by omega) (by omega))

theorem sim_eof : Sim bs (fun _ _ _ => True) false n eof eof := fun ss s s' _ ha => by
  unfold eof
  rw [ha.l, ha.r]
  cases ss with
  | nil => exact ⟨[], [], rfl, ha, trivial, (fun h => by cases h)⟩
  | cons x r =>
    cases h1 : lft (x :: r) with
    | nil => exact absurd ((lft_nil ha.ok).mp h1) (by simp)
    | cons _ _ =>
      cases h2 : rgt (x :: r) with
      | nil => exact absurd ((rgt_nil ha.ok).mp h2) (by simp)
      | cons _ _ => exact ⟨[], _, rfl, ha⟩

theorem Sim.any (h : Sim bs V st n p q) : Sim bs (fun _ _ _ => True) st n p q := h.mono fun _ _ _ _ => trivial

theorem sim_stringImpl : Sim false TV true n stringImpl stringImpl := by
  refine sim_taken (V := fun _ _ _ => True) (sim_bind (st1 := true) (st2 := false) (sim_lit (t := ['"']) (by decide)) fun _ _ _ _ _ m _ => ?_)
  refine sim_bind (V := fun _ _ _ => True) (st1 := false) (st2 := false) ?_ fun _ _ _ _ _ m _ => ?_
  · intro ss s s' _ ha
    exact sim_takeEscapedF ss.length ss _ _ s s' (Nat.le_refl _) ha (by rw [ha.l]; omega) (by rw [ha.r]; omega)
  · refine sim_alt_three (sim_lit (t := ['"']) (by decide)).any.lax (Sim.any (sim_peek (V := fun _ _ _ => True) (st := true) ?_)) sim_eof
    exact sim_alt_two (sim_lit (by decide)).any (sim_lit (by decide)).any

end Verif.Sim
