import Verif.Lemmas.SimLex
/-!
Helper lemmas: the parsers of tokens, trivia and erroneous text on two texts that differ in names only.
-/
namespace Verif.Sim
open P

variable {bs : Bool}

variable {st : Bool} {n : Nat} {dbg : Bool}

/-! ### Trees -/

mutual
/-- Two trees that differ in names only, and their pieces. -/
inductive GR : List Seg → Green → Green → Prop
  | tok (k : Kind) (c : List Seg) : GR c (.tok k (lft c)) (.tok k (rgt c))
  | node {c : List Seg} {l l' : List Green} (k : Kind) : GRL c l l' → GR c (.node k l) (.node k l')
/-- The same for elements that follow one another. -/
inductive GRL : List Seg → List Green → List Green → Prop
  | nil : GRL [] [] []
  | cons {c d : List Seg} {g g' : Green} {l l' : List Green} : GR c g g' → GRL d l l' → GRL (c ++ d) (g :: l) (g' :: l')
end

theorem GRL.append {c d : List Seg} {l l' m m' : List Green} (h1 : GRL c l l') (h2 : GRL d m m') : GRL (c ++ d) (l ++ m) (l' ++ m') := by
  match h1 with
  | .nil => exact h2
  | .cons h h3 => rw [List.append_assoc]; exact .cons h (h3.append h2)
theorem GRL.one {c : List Seg} {g g' : Green} (h : GR c g g') : GRL c [g] [g'] := by
  have := GRL.cons h .nil
  rwa [List.append_nil] at this

/-- Elements made of some of the pieces. -/
def GV (c : List Seg) (a b : List Green) : Prop := ∃ d, d.Sublist c ∧ GRL d a b

theorem GV.nil {c : List Seg} : GV c [] [] := ⟨[], List.nil_sublist c, .nil⟩
theorem GV.append {c d : List Seg} {a b a' b' : List Green} (h1 : GV c a b) (h2 : GV d a' b') : GV (c ++ d) (a ++ a') (b ++ b') := by
  obtain ⟨x, hx, h1⟩ := h1
  obtain ⟨y, hy, h2⟩ := h2
  exact ⟨x ++ y, hx.append hy, h1.append h2⟩
theorem GV.node {c : List Seg} {a b : List Green} (k : Kind) (h : GV c a b) : GV c [.node k a] [.node k b] := by
  obtain ⟨x, hx, h⟩ := h
  exact ⟨x, hx, .one (.node k h)⟩
theorem GV.tok {c : List Seg} {a b : Text} (k : Kind) (h : TV c a b) : GV c [.tok k a] [.tok k b] := by
  obtain ⟨rfl, rfl⟩ := h
  exact ⟨c, List.Sublist.refl _, .one (.tok k c)⟩
theorem GV.more {c : List Seg} {a b : List Green} (d : List Seg) (h : GV c a b) : GV (c ++ d) a b := by
  have := h.append (GV.nil (c := d))
  simpa using this

/-! ### Combinators of elements -/

theorem gsim_tok {p q : P Text} {k : Kind} (h : Sim bs TV st n p q) : Sim bs GV st n (tokP k p) (tokP k q) :=
  sim_map h fun _ _ _ h => GV.tok k h

theorem gsim_nil : Sim bs GV false n (pure []) (pure []) := sim_pure GV.nil
theorem gsim_seq_nil : Sim bs GV false n (seq []) (seq []) := gsim_nil

theorem gsim_seq_cons' {p q : G} {ps qs : List G} {st1 st2 : Bool} (hp : Sim bs GV st1 n p q)
    (hps : ∀ m, (st1 = true → m < n) → m ≤ n → Sim bs GV st2 m (seq ps) (seq qs)) (hst : st = (st1 || st2) := by rfl) :
    Sim bs GV st n (seq (p :: ps)) (seq (q :: qs)) :=
  sim_bind hp (fun c a b h hc m hm => by
    refine sim_map (hps m (fun e => ?_) (by omega)) fun d x y h2 => h.append h2
    have := List.length_pos_iff.mpr (hc e)
    omega) hst

theorem gsim_seq_cons0 {p q : G} {ps qs : List G} (hp : Sim bs GV false n p q) (hps : Sim bs GV false n (seq ps) (seq qs)) :
    Sim bs GV false n (seq (p :: ps)) (seq (q :: qs)) := gsim_seq_cons' hp fun _ _ hm => hps.le hm

theorem gsim_seq_consC {p q : G} {ps qs : List G} (hp : Sim bs GV true n p q) (hps : ∀ m < n, Sim bs GV false m (seq ps) (seq qs)) :
    Sim bs GV st n (seq (p :: ps)) (seq (q :: qs)) := (gsim_seq_cons' hp (fun m h _ => hps m (h rfl)) (st := true)).weak

theorem gsim_optG {p q : G} (h : Sim bs GV st n p q) : Sim bs GV false n (optG p) (optG q) :=
  sim_map (V := fun c a b => GV c (a.getD []) (b.getD [])) (sim_opt h (fun _ _ _ h => h) GV.nil) fun _ _ _ h => h

theorem gsim_many {p q : G} (h : Sim bs GV st n p q) : Sim bs GV false n (many dbg p) (many dbg q) :=
  sim_map (V := fun c a b => GV c a.flatten b.flatten) (sim_repeat0 h GV.nil fun _ _ _ _ _ _ h1 h2 => h1.append h2) fun _ _ _ h => h

theorem gsim_many1 {p q : G} (h : Sim bs GV st n p q) : Sim bs GV st n (many1 dbg p) (many1 dbg q) :=
  sim_map (V := fun c a b => GV c a.flatten b.flatten) (sim_repeat1 h GV.nil fun _ _ _ _ _ _ h1 h2 => h1.append h2) fun _ _ _ h => h

theorem gsim_node {p q : G} {k : Kind} (h : Sim bs GV st n p q) : Sim bs GV st n (nodeP k p) (nodeP k q) := sim_map h fun _ _ _ h => h.node k

theorem gsim_must {p q : G} (h : Sim bs GV st n p q) : Sim bs GV false n (must p) (must q) := fun ss s s' hs ha => by
  have := h ss s s' hs ha
  unfold must
  revert this
  cases p s <;> cases q s' <;> simp only [SimOut] <;> try (intro h; first | exact h | exact h.elim)
  · rintro ⟨c, r, h1, h2, h3, _⟩
    exact ⟨c, r, h1, h2, h3, (fun h => by cases h)⟩
  · rintro ⟨c, r, _, h2⟩
    exact ⟨[], ss, rfl, ha.reset h2.record, GV.nil, (fun h => by cases h)⟩

/-! ### Trivia -/

theorem gsim_ws : Sim bs GV true n ws ws := gsim_tok ((sim_takeWhile1 (.inl (by decide))).mono fun _ _ _ h => h.1)

/-- A carriage return that does not end a line. -/
def badEol (t : Text) : Bool := t.head? == some '\r' && t.tail.head? != some '\n'

theorem tillLineEnding_eq : tillLineEnding =
    bind (takeWhile0 fun c => c != '\r' && c != '\n') fun _ => fun s => if badEol s.rest then .fail .new s else .ok () s := by
  unfold tillLineEnding
  congr
  funext _ s
  split
  · rename_i heq; simp [badEol, heq]
  · rename_i tl h heq
    have : badEol s.rest = true := by
      rw [heq]
      cases tl with
      | nil => rfl
      | cons x tl =>
        by_cases hx : x = '\n'
        · subst hx; exact absurd rfl (h _)
        · simp [badEol, hx]
    rw [this]; rfl
  · rename_i h1 h2
    have : badEol s.rest = false := by
      cases hr : s.rest with
      | nil => rfl
      | cons x tl =>
        by_cases hx : x = '\r'
        · subst hx; exact absurd hr (h2 _)
        · simp [badEol, hx]
    rw [this]; rfl

theorem sim_tillLineEnding : Sim bs (fun _ _ _ => True) false n tillLineEnding tillLineEnding := by
  have hu : Uni (fun c => c != '\r' && c != '\n') := .inr fun c h => by
    have := idChar_ne h
    simp [this.2.2.2.2.1, this.2.2.2.2.2.1]
  rw [tillLineEnding_eq]
  refine sim_bind (V := fun _ _ _ => True) (st1 := false) (st2 := false) (sim_takeWhile0 hu).any fun _ _ _ _ _ m _ => ?_
  intro ss s s' _ ha
  have : badEol s.rest = badEol s'.rest := by
    rw [ha.l, ha.r]
    cases ss with
    | nil => rfl
    | cons x r =>
      cases x with
      | ch c => simp [badEol, lft, rgt, Seg.l, Seg.r, head_same ha.ok.tail]
      | name a b =>
        obtain ⟨⟨y, _, rfl, _⟩, z, _, rfl, _⟩ := ha.ok _ (.head _)
        simp [badEol, lft, rgt, Seg.l, Seg.r]
  simp only [this]
  cases badEol s'.rest
  · exact ⟨[], ss, rfl, ha, trivial, (fun h => by cases h)⟩
  · exact ⟨[], ss, rfl, ha⟩

theorem gsim_lineComment : Sim bs GV true n lineComment lineComment :=
  gsim_tok (sim_taken (V := fun _ _ _ => True) (sim_bind (st1 := true) (st2 := false) (sim_lit (t := [';', ';']) (by decide)) fun _ _ _ _ _ _ _ =>
    sim_tillLineEnding))

theorem until_cons (c : Char) (cs : Text) : untilCommentDelim (c :: cs) =
    if (c = '(' ∧ cs.head? = some ';') ∨ (c = ';' ∧ cs.head? = some ')') then some [] else (untilCommentDelim cs).map (c :: ·) := by
  by_cases h : (c = '(' ∧ cs.head? = some ';') ∨ (c = ';' ∧ cs.head? = some ')')
  · rw [if_pos h]
    rcases h with ⟨rfl, h⟩ | ⟨rfl, h⟩
    · cases cs with
      | nil => simp at h
      | cons x xs => simp at h; subst h; rw [untilCommentDelim]
    · cases cs with
      | nil => simp at h
      | cons x xs => simp at h; subst h; rw [untilCommentDelim]
  · rw [if_neg h, untilCommentDelim]
    · rintro tl rfl rfl; exact h (.inl ⟨rfl, rfl⟩)
    · rintro tl rfl rfl; exact h (.inr ⟨rfl, rfl⟩)

theorem until_skip {t : Text} : ∀ {a : Text}, (∀ c ∈ a, isIdChar c = true) → untilCommentDelim (a ++ t) = (untilCommentDelim t).map (a ++ ·)
  | [], _ => by simp
  | c :: a, h => by
    have hc := idChar_ne (h c (.head _))
    rw [List.cons_append, until_cons, if_neg (by simp [hc.1, hc.2.2.1]), until_skip fun x hx => h x (.tail _ hx), Option.map_map]
    rfl

theorem until_split : ∀ {ss : List Seg}, Oks bs ss →
    (untilCommentDelim (lft ss) = none ∧ untilCommentDelim (rgt ss) = none) ∨
    ∃ c r, ss = c ++ r ∧ untilCommentDelim (lft ss) = some (lft c) ∧ untilCommentDelim (rgt ss) = some (rgt c)
  | [], _ => .inl ⟨rfl, rfl⟩
  | .ch x :: ss, ho => by
    show (untilCommentDelim (x :: lft ss) = none ∧ untilCommentDelim (x :: rgt ss) = none) ∨ ∃ c r, .ch x :: ss = c ++ r ∧
      untilCommentDelim (x :: lft ss) = some (lft c) ∧ untilCommentDelim (x :: rgt ss) = some (rgt c)
    rw [until_cons, until_cons, ← head_same ho.tail]
    split
    · exact .inr ⟨[], _, rfl, rfl, rfl⟩
    · rcases until_split ho.tail with ⟨h1, h2⟩ | ⟨c, r, rfl, h1, h2⟩
      · exact .inl ⟨by rw [h1]; rfl, by rw [h2]; rfl⟩
      · exact .inr ⟨.ch x :: c, r, rfl, by rw [h1]; rfl, by rw [h2]; rfl⟩
  | .name a b :: ss, ho => by
    have hn := ho _ (.head _)
    show (untilCommentDelim (a ++ lft ss) = none ∧ untilCommentDelim (b ++ rgt ss) = none) ∨ ∃ c r, .name a b :: ss = c ++ r ∧
      untilCommentDelim (a ++ lft ss) = some (lft c) ∧ untilCommentDelim (b ++ rgt ss) = some (rgt c)
    rw [until_skip hn.1.idChars, until_skip hn.2.idChars]
    rcases until_split ho.tail with ⟨h1, h2⟩ | ⟨c, r, rfl, h1, h2⟩
    · exact .inl ⟨by rw [h1]; rfl, by rw [h2]; rfl⟩
    · exact .inr ⟨.name a b :: c, r, rfl, by rw [h1]; rfl, by rw [h2]; rfl⟩

theorem sim_takeUntil : Sim bs (fun _ _ _ => True) false n takeUntilCommentDelim takeUntilCommentDelim := fun ss s s' _ ha => by
  unfold takeUntilCommentDelim
  rcases until_split ha.ok with ⟨h1, h2⟩ | ⟨c, r, h0, h1, h2⟩
  · rw [ha.l, ha.r, h1, h2]
    exact ⟨[], ss, rfl, ha⟩
  · rw [ha.l, ha.r, h1, h2]
    subst h0
    simp only [lft_append, rgt_append, List.drop_left]
    exact ⟨c, r, rfl, ha.rest, trivial, (fun h => by cases h)⟩

/-- What was looked at is there on both sides or on neither. -/
theorem sim_peekOpt {t : Text} (ht : '$' ∉ t) (hne : t ≠ [] := by simp) :
    Sim bs (fun c a b => c = [] ∧ a = b) false n (peek (opt (lit t))) (peek (opt (lit t))) :=
  (sim_peek (sim_opt (W := fun _ a b => a = b) (sim_lit (n := n) ht hne) (fun _ a b h => by rw [h.2.2.1, h.2.2.2]) rfl)).mono
    fun _ _ _ h => ⟨h.1, by obtain ⟨_, _, h⟩ := h; exact h⟩

theorem sim_blockCommentImpl : ∀ f f' n, n < f → n < f' → Sim bs TV true n (blockCommentImpl dbg f) (blockCommentImpl dbg f')
  | 0, _, _, h, _ => by omega
  | _, 0, _, _, h => by omega
  | f + 1, f' + 1, n, h, h' => by
    refine sim_taken (V := fun _ _ _ => True) (sim_bind (st1 := true) (st2 := false) (sim_lit (t := ['(', ';']) (by decide)) fun c _ _ _ hc m hm => ?_)
    have hpos := List.length_pos_iff.mpr (hc rfl)
    have ih := sim_blockCommentImpl f f' m (by omega) (by omega)
    refine sim_repeatTill (V := fun _ _ _ => True) (st := false) (U := fun _ _ _ => True) (st' := true) ?_ (sim_lit (by decide)).any
      (fun _ _ _ _ => trivial) (fun _ _ _ _ _ _ _ _ => trivial)
    refine sim_bind (V := fun _ _ _ => True) (st1 := false) (st2 := false) sim_takeUntil fun _ _ _ _ _ m' hm' => ?_
    refine sim_bind (st1 := false) (st2 := false) (sim_peekOpt (by decide)) fun c a b hab _ m2 hm2 => ?_
    obtain ⟨rfl, rfl⟩ := hab
    cases a with
    | none => exact sim_pure trivial
    | some _ => exact sim_map (V := fun _ _ _ => True) (sim_opt (V := TV) (ih.le (by omega)) (fun _ _ _ _ => trivial) trivial) fun _ _ _ _ => trivial

theorem gsim_blockComment : Sim bs GV true n (blockComment dbg) (blockComment dbg) := fun ss s s' _ ha =>
  (gsim_tok (sim_blockCommentImpl _ _ ss.length ha.fuel.1 ha.fuel.2)) ss s s' (Nat.le_refl _) ha

theorem gsim_trivias : Sim bs GV false n (trivias dbg) (trivias dbg) :=
  gsim_many (sim_alt_three gsim_ws gsim_lineComment gsim_blockComment)

theorem gsim_tp {p q : G} (h : Sim bs GV st n p q) : Sim bs GV st n (tp dbg p) (tp dbg q) := by
  refine gsim_seq_cons' (st1 := false) (st2 := st) gsim_trivias (fun m _ hm => ?_) (by simp)
  exact gsim_seq_cons' (st1 := st) (st2 := false) (h.le hm) (fun _ _ _ => gsim_seq_nil) (by simp)

/-! ### Tokens -/

theorem gsim_lParen : Sim bs GV st n lParen lParen :=
  (sim_context (gsim_tok ((sim_lit (by decide)).mono fun _ _ _ h => ⟨by rw [h.2.1, h.2.2.1], by rw [← h.1.same, h.2.1, h.2.2.2]⟩))).weak

theorem TV_lit {c : List Seg} {t a b : Text} (h : Pl c ∧ lft c = t ∧ a = t ∧ b = t) : TV c a b :=
  ⟨by rw [h.2.1, h.2.2.1], by rw [← h.1.same, h.2.1, h.2.2.2]⟩

theorem gsim_keyword {kw : Text} (h : '$' ∉ kw) : Sim bs GV st n (keyword kw) (keyword kw) :=
  (sim_context (gsim_tok ((sim_verify sim_words fun _ _ _ hw => hw.beq h).mono fun _ _ _ h => h.1))).weak

theorem gsim_ident : Sim bs GV st n ident ident := (gsim_tok (sim_context (sim_taken sim_dollar1))).weak

theorem gsim_string : Sim false GV st n string string := (gsim_tok (sim_context sim_stringImpl)).weak

/-- Text without names. -/
def PV (c : List Seg) (a b : Text) : Prop := TV c a b ∧ Pl c

theorem PV.eq {c : List Seg} {a b : Text} (h : PV c a b) : a = b := h.1.1.trans (h.2.same.trans h.1.2.symm)

theorem sim_ptake {V : List Seg → α → β → Prop} {p : P α} {q : P β} (h : Sim bs V st n p q) (hv : ∀ c a b, V c a b → Pl c) :
    Sim bs PV st n (take p) (take q) := (sim_take h).mono fun _ _ _ h => ⟨h.1, by obtain ⟨_, _, _, h⟩ := h; exact hv _ _ _ h⟩

theorem sim_bindPl {V : List Seg → α → β → Prop} {W : List Seg → α' → β' → Prop} {st1 st2 : Bool} {p : P α} {q : P β} {f : α → P α'} {g : β → P β'}
    (hp : Sim bs V st1 n p q) (hv : ∀ c a b, V c a b → Pl c)
    (hf : ∀ c a b, V c a b → ∀ m ≤ n, Sim bs W st2 m (f a) (g b)) (hw : ∀ c a b, W c a b → Pl c) (hst : st = (st1 || st2) := by rfl) :
    Sim bs (fun c _ _ => Pl c) st n (bind p f) (bind q g) :=
  sim_bind hp (fun c a b h _ m hm => (hf c a b h m (by omega)).mono fun d x y h2 => (hv _ _ _ h).append (hw _ _ _ h2)) hst

theorem sim_digits {f g : Char → Bool} (hf : f '$' = false) (hg : g '$' = false) :
    Sim bs PV true n (take (bind (oneOf f) fun _ => takeWhile0 g)) (take (bind (oneOf f) fun _ => takeWhile0 g)) :=
  sim_ptake (sim_bindPl (st1 := true) (st2 := false) (sim_oneOf hf) (fun _ _ _ h => h.2.1 ▸ Pl.one)
    (fun _ _ _ _ m _ => sim_takeWhile0 (.inl hg)) fun _ _ _ h => h.2 hg) fun _ _ _ h => h

theorem sim_unsignedHex : Sim bs PV true n unsignedHex unsignedHex := sim_digits (by decide) (by decide)
theorem sim_unsignedDec : Sim bs PV true n unsignedDec unsignedDec := sim_digits (by decide) (by decide)

/-- An optional part without names. -/
theorem sim_optPl {V : List Seg → α → β → Prop} {p : P α} {q : P β} (h : Sim bs V st n p q) (hv : ∀ c a b, V c a b → Pl c) :
    Sim bs (fun c a b => Pl c ∧ (a.isSome = b.isSome)) false n (opt p) (opt q) :=
  sim_opt h (fun _ _ _ h => ⟨hv _ _ _ h, rfl⟩) ⟨Pl.nil, rfl⟩

theorem sim_unsignedIntImpl : Sim bs PV true n unsignedIntImpl unsignedIntImpl := by
  refine sim_verify (sim_ptake (V := fun c _ _ => Pl c) ?_ fun _ _ _ h => h) fun _ _ _ h => by rw [h.eq]
  refine sim_bindPl (st1 := false) (st2 := true) (W := PV) (sim_optPl (sim_lit (by decide)) fun _ _ _ h => h.1) (fun _ _ _ h => h.1)
    (fun _ a b h m _ => ?_) fun _ _ _ h => h.2
  cases a <;> cases b <;> simp at h
  · exact sim_unsignedDec
  · exact sim_unsignedHex

theorem gsim_unsignedInt : Sim bs GV st n unsignedInt unsignedInt := (gsim_tok (sim_unsignedIntImpl.mono fun _ _ _ h => h.1)).weak

theorem sim_optSign : Sim bs (fun c _ _ => Pl c) false n optSign optSign :=
  sim_map (sim_optPl (sim_oneOf (by decide)) fun _ _ _ h => h.2.1 ▸ Pl.one) fun _ _ _ h => h.1

theorem sim_intImpl : Sim bs PV true n intImpl intImpl := by
  refine sim_ptake (V := fun c _ _ => Pl c) ?_ fun _ _ _ h => h
  refine sim_bindPl (st1 := false) (st2 := true) sim_optSign (fun _ _ _ h => h) (fun _ _ _ _ m _ => ?_) fun _ _ _ h => h
  exact sim_bindPl (st1 := true) (st2 := false) sim_unsignedIntImpl (fun _ _ _ h => h.2) (fun _ _ _ _ m _ => sim_peekNone) fun _ _ _ h => h ▸ Pl.nil

theorem gsim_int : Sim bs GV st n int int := (gsim_tok (sim_intImpl.mono fun _ _ _ h => h.1)).weak

/-- The part of a number after its first digits. -/
theorem sim_numberTail {p q : P Text} {f : Char → Bool} (hf : f '$' = false) (h : ∀ m ≤ n, Sim bs PV true m p q) :
    Sim bs (fun c _ _ => Pl c) false n
      (bind (opt (bind (lit ['.']) fun _ => opt p)) fun _ => void (opt (bind (oneOf f) fun _ => bind optSign fun _ => unsignedDec)))
      (bind (opt (bind (lit ['.']) fun _ => opt q)) fun _ => void (opt (bind (oneOf f) fun _ => bind optSign fun _ => unsignedDec))) := by
  refine sim_bindPl (st1 := false) (st2 := false) (sim_optPl (V := fun c _ _ => Pl c) (st := true) ?_ fun _ _ _ h => h) (fun _ _ _ h => h.1) (fun _ _ _ _ m _ => ?_)
    fun _ _ _ h => h
  · exact sim_bindPl (st1 := true) (st2 := false) (sim_lit (by decide)) (fun _ _ _ h => h.1) (fun _ _ _ _ m hm => sim_optPl (h m hm) fun _ _ _ h => h.2)
      fun _ _ _ h => h.1
  · refine sim_map (sim_optPl (V := fun c _ _ => Pl c) (st := true) ?_ fun _ _ _ h => h) fun _ _ _ h => h.1
    refine sim_bindPl (st1 := true) (st2 := true) (sim_oneOf hf) (fun _ _ _ h => h.2.1 ▸ Pl.one) (fun _ _ _ _ m _ => ?_) fun _ _ _ h => h
    exact sim_bindPl (st1 := false) (st2 := true) sim_optSign (fun _ _ _ h => h) (fun _ _ _ _ m _ => sim_unsignedDec) fun _ _ _ h => h.2

theorem sim_floatImpl : Sim bs PV true n floatImpl floatImpl := by
  refine sim_verify (sim_ptake (V := fun c _ _ => Pl c) ?_ fun _ _ _ h => h) fun _ _ _ h => by rw [h.eq]
  refine sim_bindPl (st1 := false) (st2 := true) sim_optSign (fun _ _ _ h => h) (fun _ _ _ _ m _ => ?_) fun _ _ _ h => h
  refine sim_bindPl (V := fun c _ _ => Pl c) (st1 := true) (st2 := false) ?_ (fun _ _ _ h => h) (fun _ _ _ _ m _ => sim_peekNone) fun _ _ _ h => h ▸ Pl.nil
  refine sim_alt_four ?_ ?_ ?_ ?_
  · refine sim_bindPl (st1 := true) (st2 := true) (sim_lit (by decide)) (fun _ _ _ h => h.1) (fun _ _ _ _ m _ => ?_) fun _ _ _ h => h
    exact sim_bindPl (st1 := true) (st2 := false) sim_unsignedHex (fun _ _ _ h => h.2)
      (fun _ _ _ _ m _ => sim_numberTail (by decide) fun _ _ => sim_unsignedHex) fun _ _ _ h => h
  · exact sim_bindPl (st1 := true) (st2 := false) sim_unsignedDec (fun _ _ _ h => h.2)
      (fun _ _ _ _ m _ => sim_numberTail (by decide) fun _ _ => sim_unsignedDec) fun _ _ _ h => h
  · exact sim_map (sim_lit (by decide)) fun _ _ _ h => h.1
  · refine sim_bindPl (st1 := true) (st2 := false) (sim_lit (by decide)) (fun _ _ _ h => h.1) (fun _ _ _ _ m _ => ?_) fun _ _ _ h => h
    refine sim_map (sim_optPl (V := fun c _ _ => Pl c) (st := true) ?_ fun _ _ _ h => h) fun _ _ _ h => h.1
    exact sim_bindPl (st1 := true) (st2 := true) (sim_lit (by decide)) (fun _ _ _ h => h.1) (fun _ _ _ _ m _ => sim_unsignedHex) fun _ _ _ h => h.2

theorem gsim_float : Sim bs GV st n float float := (gsim_tok (sim_floatImpl.mono fun _ _ _ h => h.1)).weak

/-! ### Erroneous text -/

theorem gsim_errorToken {b : Bool} : Sim false GV true n (errorToken b) (errorToken b) := by
  refine gsim_tok (sim_bind (st1 := false) (st2 := true) sim_peekAny fun c x y hxy _ m hm => ?_)
  obtain ⟨rfl, rfl⟩ := hxy
  simp only [List.nil_append]
  refine sim_ite rfl (sim_taken sim_dollar0) (sim_ite rfl ?_ (sim_ite rfl sim_stringImpl (sim_ite rfl ?_ ?_)))
  · exact sim_ite rfl (sim_alt_two ((sim_lit (by decide)).mono fun _ _ _ => TV_lit) ((sim_lit (by decide)).mono fun _ _ _ => TV_lit)) sim_fail
  · exact (sim_takeWhile1 uni_id).mono fun _ _ _ h => h.1
  · refine (sim_takeWhile1 (.inr fun c h => ?_)).mono fun _ _ _ h => h.1
    have := idChar_ne h
    simp [this.1, this.2.1, this.2.2.2.2.2.2]

theorem gsim_errorTermInner : ∀ f f' n, n < f → n < f' → Sim false GV true n (errorTermInner dbg f) (errorTermInner dbg f')
  | 0, _, _, h, _ => by omega
  | _, 0, _, _, h => by omega
  | f + 1, f' + 1, n, h, h' => by
    refine gsim_seq_consC (gsim_tok ((sim_lit (by decide)).mono fun _ _ _ => TV_lit)) fun m hm => ?_
    have ih := gsim_errorTermInner f f' m (by omega) (by omega)
    refine gsim_seq_cons0 (gsim_many (st := true) (gsim_tp ?_)) (gsim_seq_cons0 (gsim_optG (st := true) (gsim_tok ((sim_lit (by decide)).mono fun _ _ _ => TV_lit))) gsim_seq_nil)
    refine sim_bind (st1 := false) (st2 := true) (sim_peekOpt (by decide)) fun c a b hab _ m2 hm2 => ?_
    obtain ⟨rfl, rfl⟩ := hab
    cases a with
    | none => exact gsim_errorToken
    | some _ => exact ih.le (by omega)

theorem gsim_errorTerm {al : List Text} (hal : ∀ a ∈ al, '$' ∉ a) : Sim false GV true n (errorTerm dbg al) (errorTerm dbg al) := by
  refine sim_bind (V := fun c _ _ => c = []) (st1 := false) (st2 := true) ?_ fun c _ _ hc _ m hm => ?_
  · refine (sim_peek (V := fun c _ _ => c = []) (sim_not (V := fun _ _ _ => True) (st := true) ?_)).mono fun _ _ _ h => h.1
    refine sim_bind (st1 := false) (st2 := true) gsim_trivias fun _ _ _ _ _ m _ => ?_
    refine sim_bind (st1 := true) (st2 := true) (sim_lit (by decide)) fun _ _ _ _ _ m _ => ?_
    refine sim_bind (st1 := false) (st2 := true) gsim_trivias fun _ _ _ _ _ m _ => ?_
    exact (sim_verify sim_words fun _ _ _ h => h.any hal).any
  · subst hc
    intro ss s s' _ ha
    exact (gsim_errorTermInner _ _ ss.length ha.fuel.1 ha.fuel.2) ss s s' (Nat.le_refl _) ha

theorem gsim_unexpected : Sim false GV true n unexpectedToken unexpectedToken := sim_context gsim_errorToken

theorem rParenF_sim {start start' : St} : ∀ (f f' : Nat) (c0 ss : List Seg) (s s' : St) (acc acc' : List Green),
    ss.length < f → ss.length < f' → At false (c0 ++ ss) start start' → At false ss s s' → GV c0 acc acc' →
    SimOut false GV false (c0 ++ ss) (rParenF dbg start f acc s) (rParenF dbg start' f' acc' s')
  | 0, _, _, _, _, _, _, _, h, _, _, _, _ => by omega
  | _, 0, _, _, _, _, _, _, _, h, _, _, _ => by omega
  | f + 1, f' + 1, c0, ss, s, s', acc, acc', hf, hf', hs, ha, hg => by
    have h1 := gsim_trivias (dbg := dbg) (n := ss.length) ss s s' (Nat.le_refl _) ha
    unfold rParenF
    revert h1
    cases trivias dbg s <;> cases trivias dbg s' <;> simp only [SimOut] <;> try (intro h; first | exact h | exact h.elim)
    · rename_i tr s1 tr' s1'
      rintro ⟨c, r, rfl, ha1, hg1, _⟩
      have h2 := sim_context (m := .expChar ')') (m' := .expChar ')') (sim_lit (t := [')']) (n := r.length) (by decide)) r s1 s1' (Nat.le_refl _) ha1
      revert h2
      cases context (.expChar ')') (lit [')']) s1 <;> cases context (.expChar ')') (lit [')']) s1' <;> simp only [SimOut] <;>
        try (intro h; first | exact h | exact h.elim)
      · rintro ⟨c2, r2, rfl, ha2, hp, _⟩
        refine ⟨c0 ++ c ++ c2, r2, by simp, ha2, ?_, (fun h => by cases h)⟩
        refine (hg.append hg1).append (GV.tok _ ⟨hp.2.1.symm, ?_⟩)
        rw [← hp.1.same, hp.2.1]
      · rename_i e s2 e' s2'
        rintro ⟨c2, r2, _, ha2⟩
        have ha3 := ha1.reset ha2
        have h3 := gsim_unexpected (n := r.length) r _ _ (Nat.le_refl _) ha3
        revert h3
        cases unexpectedToken (s2.resetTo s1) <;> cases unexpectedToken (s2'.resetTo s1') <;> simp only [SimOut] <;>
          try (intro h; first | exact h | exact h.elim)
        · rename_i et s4 et' s4'
          rintro ⟨c4, r4, rfl, ha4, hg4, hst⟩
          have hne := hst trivial
          have hlen := same_length ha3 ha4
          rw [if_neg (fun h => hne (hlen.1.mp h)), if_neg (fun h => hne (hlen.2.mp h))]
          have hpos := List.length_pos_iff.mpr hne
          simp only [List.length_append] at hf hf'
          have e0 : c0 ++ (c ++ (c4 ++ r4)) = (c0 ++ c ++ c4) ++ r4 := by simp
          have := rParenF_sim f f' (c0 ++ c ++ c4) r4 (s4.record e) (s4'.record e') (acc ++ tr ++ et) (acc' ++ tr' ++ et')
            (by omega) (by omega) (e0 ▸ hs) ha4.record ((hg.append hg1).append hg4)
          rw [e0]
          exact this
        · rename_i e4 s4 e4' s4'
          rintro ⟨c4, r4, _, ha4⟩
          exact ⟨[], _, rfl, hs.reset ha4.record, GV.nil, (fun h => by cases h)⟩
    · rintro ⟨c, r, rfl, h⟩
      exact ⟨c0 ++ c, r, by simp, h⟩

theorem gsim_rParen : Sim false GV false n (rParen dbg) (rParen dbg) := fun ss s s' _ ha =>
  rParenF_sim (c0 := []) _ _ ss s s' [] [] ha.fuel.1 ha.fuel.2 ha ha GV.nil

/-- One round of `retry`. -/
theorem retryRound_sim {p q : G} {al : List Text} {again again' : List Green → G} {c0 ss : List Seg} {s s' : St} {acc acc' : List Green}
    (hal : ∀ a ∈ al, '$' ∉ a) (hp : Sim false GV true n p q) (hn : ss.length ≤ n) (ha : At false ss s s') (hg : GV c0 acc acc')
    (hagain : ∀ c r t t' x x', ss = c ++ r → c ≠ [] → At false r t t' → GV (c0 ++ c) x x' → SimOut false GV true (c0 ++ ss) (again x t) (again' x' t')) :
    SimOut false GV true (c0 ++ ss) (retryRound dbg p al acc again s) (retryRound dbg q al acc' again' s') := by
  have h1 := gsim_trivias (dbg := dbg) (n := ss.length) ss s s' (Nat.le_refl _) ha
  unfold retryRound
  revert h1
  cases trivias dbg s <;> cases trivias dbg s' <;> simp only [SimOut] <;> try (intro h; first | exact h | exact h.elim)
  · rename_i tr s1 tr' s1'
    rintro ⟨c, r, rfl, ha1, hg1, _⟩
    have h2 := hp r s1 s1' (by simp only [List.length_append] at hn; omega) ha1
    revert h2
    cases p s1 <;> cases q s1' <;> simp only [SimOut] <;>
      try (intro h; first | exact h | exact h.elim)
    · rintro ⟨c2, r2, rfl, ha2, hp, hst⟩
      exact ⟨c0 ++ c ++ c2, r2, by simp, ha2, (hg.append hg1).append hp, fun _ => by simp [hst trivial]⟩
    · rename_i e s2 e' s2'
      rintro ⟨c2, r2, _, ha2⟩
      have ha3 := ha1.reset ha2
      have h3 := gsim_unexpected (n := r.length) r _ _ (Nat.le_refl _) ha3
      revert h3
      cases unexpectedToken (s2.resetTo s1) <;> cases unexpectedToken (s2'.resetTo s1') <;> simp only [SimOut] <;>
        try (intro h; first | exact h | exact h.elim)
      · rename_i et s4 et' s4'
        rintro ⟨c4, r4, rfl, ha4, hg4, hst⟩
        have hne := hst trivial
        have hlen := same_length ha3 ha4
        rw [if_neg (fun h => hne (hlen.1.mp h)), if_neg (fun h => hne (hlen.2.mp h))]
        have := hagain (c ++ c4) r4 (s4.record e) (s4'.record e') (acc ++ tr ++ et) (acc' ++ tr' ++ et') (by simp) (by simp [hne]) ha4.record
          (by rw [← List.append_assoc]; exact (hg.append hg1).append hg4)
        simp only [SimOut] at this
        exact this
      · rename_i e4 s4 e4' s4'
        rintro ⟨c4, r4, rfl, ha4⟩
        have h5 := gsim_errorTerm (dbg := dbg) (n := r4.length) hal r4 s4 s4' (Nat.le_refl _) ha4
        revert h5
        cases errorTerm dbg al s4 <;> cases errorTerm dbg al s4' <;> simp only [SimOut] <;>
          try (intro h; first | exact h | exact h.elim)
        · rename_i ets s6 ets' s6'
          rintro ⟨c6, r6, rfl, ha6, hg6, hst⟩
          have hne := hst trivial
          have e0 : c4 ++ (c6 ++ r6) = (c4 ++ c6) ++ r6 := by simp
          have hlen := same_length (e0 ▸ ha3) ha6
          rw [if_neg (fun h => by have := hlen.1.mp h; simp [hne] at this), if_neg (fun h => by have := hlen.2.mp h; simp [hne] at this)]
          refine ⟨c0 ++ c ++ (c4 ++ c6), r6, by simp, ha6.record, ?_, fun _ => by simp [hne]⟩
          refine (hg.append hg1).append ?_
          have := (GV.nil (c := c4)).append hg6
          simpa using this
        · rintro ⟨c6, r6, _, ha6⟩
          exact ⟨c0, _, rfl, ha.reset ha6⟩
  · rintro ⟨c, r, rfl, h⟩
    exact ⟨c0 ++ c, r, by simp, h⟩

theorem gsim_retryOnce {p q : G} {al : List Text} (hp : Sim false GV true n p q) (hal : ∀ a ∈ al, '$' ∉ a := by decide) :
    Sim false GV st n (retryOnce dbg p al) (retryOnce dbg q al) := Sim.weak fun ss s s' hn ha =>
  retryRound_sim (c0 := []) hal hp hn ha GV.nil fun c r t t' x x' h1 h2 h3 h4 => ⟨c, r, h1, h3, h4, fun _ => h2⟩

theorem retryF_sim {p q : G} {al : List Text} (hp : Sim false GV true n p q) (hal : ∀ a ∈ al, '$' ∉ a) :
    ∀ (f f' : Nat) (c0 ss : List Seg) (s s' : St) (acc acc' : List Green), ss.length ≤ n → ss.length < f → ss.length < f' → At false ss s s' →
    GV c0 acc acc' → SimOut false GV true (c0 ++ ss) (retryF dbg p al f acc s) (retryF dbg q al f' acc' s')
  | 0, _, _, _, _, _, _, _, _, h, _, _, _ => by omega
  | _, 0, _, _, _, _, _, _, _, _, h, _, _ => by omega
  | f + 1, f' + 1, c0, ss, s, s', acc, acc', hn, hf, hf', ha, hg => by
    refine retryRound_sim hal hp hn ha hg fun c r t t' x x' h1 h2 h3 h4 => ?_
    have hpos := List.length_pos_iff.mpr h2
    subst h1
    simp only [List.length_append] at hn hf hf'
    have := retryF_sim hp hal f f' (c0 ++ c) r t t' x x' (by omega) (by omega) (by omega) h3 h4
    rwa [List.append_assoc] at this

theorem gsim_retry {p q : G} {al : List Text} (hp : Sim false GV true n p q) (hal : ∀ a ∈ al, '$' ∉ a := by decide) :
    Sim false GV st n (retry dbg p al) (retry dbg q al) := Sim.weak fun ss s s' hn ha =>
  retryF_sim (c0 := []) hp hal _ _ ss s s' [] [] hn ha.fuel.1 ha.fuel.2 ha GV.nil

end Verif.Sim
