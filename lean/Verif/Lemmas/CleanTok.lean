import Verif.Lemmas.Clean
import Verif.Lemmas.Settle
import Verif.Lemmas.Reparse
/-!
Helper lemmas: the tokens of two texts that differ in names only, where no error is recorded.
-/
namespace Verif.Clean
open P Spec Sim

/-- The token of this kind and text can be where it is, before `u`. -/
def Placed1 (k : Kind) (t u : Text) : Prop :=
  match k with
  | .ERROR => False
  | .L_PAREN => t = ['('] ∧ ¬ Starts ('(' :: u)
  | .STRING => StrAt t u
  | .LINE_COMMENT => LineAt t u
  | .BLOCK_COMMENT => BlockComment t
  | _ => ∀ c ∈ t, QuietC c
/-- All tokens can be where they are, before `u`. -/
def Placed : List (Kind × Text) → Text → Prop
  | [], _ => True
  | kt :: l, u => Placed1 kt.1 kt.2 ((l.map (·.2)).flatten ++ u) ∧ Placed l u
/-- Kinds of tokens that begin no string, comment or term. -/
def quietKind : Kind → Bool
  | .ERROR | .L_PAREN | .STRING | .LINE_COMMENT | .BLOCK_COMMENT => false
  | _ => true

theorem placed_append {a b : List (Kind × Text)} {u : Text} (h1 : Placed a ((b.map (·.2)).flatten ++ u)) (h2 : Placed b u) : Placed (a ++ b) u := by
  induction a with
  | nil => exact h2
  | cons x a ih => exact ⟨by simpa using h1.1, ih h1.2⟩

theorem placed_quiet {l : List (Kind × Text)} {u : Text} (h : ∀ kt ∈ l, quietKind kt.1 = true ∧ ∀ c ∈ kt.2, QuietC c) : Placed l u := by
  induction l with
  | nil => trivial
  | cons x l ih =>
    refine ⟨?_, ih fun kt hk => h kt (.tail _ hk)⟩
    obtain ⟨k, t⟩ := x
    obtain ⟨h1, h2⟩ := h _ (.head _)
    simp only at h1 h2 ⊢
    unfold Placed1
    split <;> first | (cases h1; done) | exact h2

/-- The same elements on both sides, where they can be. -/
def GV2 (c r : List Seg) (a a' : List Green) : Prop := GRL c a a' ∧ Placed (Green.toksL a) (lft r)

theorem GV2.nil {r : List Seg} : GV2 [] r [] [] := ⟨.nil, trivial⟩
theorem GV2.append {c d r : List Seg} {a a' x x' : List Green} (h1 : GV2 c (d ++ r) a a') (h2 : GV2 d r x x') : GV2 (c ++ d) r (a ++ x) (a' ++ x') := by
  refine ⟨h1.1.append h2.1, ?_⟩
  rw [toksL_append]
  refine placed_append ?_ h2.2
  rw [toksL_texts, h2.1.text, ← lft_append]
  exact h1.2
theorem GV2.node {c r : List Seg} {a a' : List Green} (k : Kind) (h : GV2 c r a a') : GV2 c r [.node k a] [.node k a'] := by
  refine ⟨.one (.node k h.1), ?_⟩
  simp only [Green.toksL, Green.toks, List.append_nil]
  exact h.2

variable {J : Inv} {b st dbg : Bool} {n : Nat}

theorem inv_quiet {r : List Seg} : ∀ {c : List Seg}, Oks true (c ++ r) → J.I (c ++ r) → (∀ x ∈ lft c, QuietC x) → J.I r
  | [], _, h, _ => h
  | x :: c, ho, h, hq => by
    refine inv_quiet (c := c) ho.tail (J.quiet ho h ?_) fun y hy => hq y (by simp [lft, hy])
    cases x with
    | ch c => exact hq c (by simp [lft, Seg.l])
    | name _ _ => trivial

/-- A parser that consumes the text of what it yields. -/
def Whole (p : G) : Prop := Keeps p ∧ ∀ s a s1, p s = .ok a s1 → s.rest = Green.textL a ++ s1.rest

theorem whole_lex {p : G} {Q : List Green → Text → Prop} (h : ∀ n, Lex dbg n Q p) (hq : ∀ a c, Q a c → Green.textL a = c) : Whole p :=
  ⟨keeps_lex h, fun s a s1 hp => by
    have := h s.rest.length s (Nat.le_refl _)
    rw [hp] at this
    obtain ⟨c, h1, h2⟩ := this
    rw [hq _ _ h2, h1.rest]⟩

theorem cl_raw {p : G} (hs : ∀ n, Sim true GV true n p p) (hw : Whole p)
    (hI : ∀ c r a s s1, p s = .ok a s1 → s.rest = lft (c ++ r) → s1.rest = lft r → Green.textL a = lft c → Oks true (c ++ r) → J.I (c ++ r) →
      (b = true → ¬ Starts (lft (c ++ r))) → J.I r ∧ Placed (Green.toksL a) (lft r)) : Cl J b GV2 st n p p := by
  refine Cl.weak ⟨hw.1.mono, fun ss s s' _ ha hb => ?_⟩
  have h := hs ss.length ss s s' (Nat.le_refl _) ha.at_
  cases h1 : p s <;> cases h2 : p s' <;> simp only [h1, h2, SimOut] at h
  · obtain ⟨c, r, rfl, h3, ⟨d, hd, hg⟩, hne⟩ := h
    have e := hw.2 _ _ _ h1
    have ho := ha.at_.ok
    rw [ha.at_.l, h3.l, lft_append] at e
    have e2 := List.append_cancel_right e
    obtain rfl := sublist_same hd ho.append_left (by rw [e2, hg.text])
    obtain ⟨k1, k2⟩ := hI d r _ _ _ h1 ha.at_.l h3.l e2.symm ho ha.inv hb
    exact .inr ⟨d, r, rfl, ⟨h3, (same_errs ha (hw.1.ok h1) h3).1, k1⟩, ⟨hg, k2⟩, fun _ => hne trivial⟩
  · obtain ⟨c, r, rfl, h3⟩ := h
    exact .inr (same_errs ha (hw.1.fail h1) h3)
  · exact .inl trivial

/-- A parser that yields quiet tokens. -/
def QuietLex (p : G) : Prop := ∀ n, Lex false n (fun gs c => Green.textL gs = c ∧ ∀ kt ∈ Green.toksL gs, quietKind kt.1 = true ∧ ∀ c ∈ kt.2, QuietC c) p

theorem cl_leaf {p : G} (hs : ∀ n, Sim true GV true n p p) (hl : QuietLex p) : Cl J b GV2 st n p p := by
  refine cl_raw hs (whole_lex hl fun _ _ h => h.1) fun c r a s s1 hp _ _ ht ho hi _ => ?_
  have := hl s.rest.length s (Nat.le_refl _)
  rw [hp] at this
  obtain ⟨_, _, h1, h2⟩ := this
  refine ⟨inv_quiet ho hi fun x hx => ?_, placed_quiet h2⟩
  rw [← ht, ← toksL_texts] at hx
  obtain ⟨t, ht, hx⟩ := List.mem_flatten.mp hx
  obtain ⟨kt, hk, rfl⟩ := List.mem_map.mp ht
  exact (h2 kt hk).2 x hx

theorem quiet_id {c : Char} (h : isIdChar c = true) : QuietC c := by
  have := idChar_ne h
  exact ⟨this.2.2.2.1, this.1, this.2.2.1⟩

theorem qlex_tokP {p : P Text} {k : Kind} (h : ∀ n, Lex false n (fun a c => a = c ∧ ∀ x ∈ c, QuietC x) p) (hk : quietKind k = true) : QuietLex (tokP k p) :=
  fun n => lex_map (h n) fun a c hq => by
    obtain ⟨rfl, hq⟩ := hq
    simp only [Green.textL, Green.text, Green.toksL, Green.toks, List.append_nil, List.mem_singleton, forall_eq, true_and]
    exact ⟨hk, hq⟩

theorem word_quiet {w : Text} (h : IsWord w) : ∀ x ∈ w, QuietC x := by
  obtain ⟨c, r, rfl, hc, hr⟩ := h
  intro x hx
  rcases List.mem_cons.mp hx with rfl | hx
  · exact quiet_id ((isIdChar_iff x).mpr ((by decide : ∀ y ∈ lowers, y ∈ idChars) _ hc))
  · exact quiet_id ((isIdChar_iff x).mpr (hr x hx))

theorem qlex_word : ∀ n, Lex false n (fun a c => a = c ∧ ∀ x ∈ c, QuietC x) word := fun _ => lex_word.mono fun _ _ h => ⟨h.1, word_quiet h.2⟩
theorem qlex_context {p : G} {m : Msg} (h : QuietLex p) : QuietLex (context m p) := fun n => lex_context _ (h n)
theorem qlex_keyword {kw : Text} : QuietLex (keyword kw) := qlex_context (qlex_tokP (fun n => lex_verify (qlex_word n) fun _ _ h _ => h) rfl)
theorem qlex_ident : QuietLex ident := qlex_tokP (fun n => lex_context _ (lex_take (Q := fun _ c => ∀ x ∈ c, QuietC x) (lex_bind (lex_lit _) fun a c h =>
    (lex_takeWhile1 isIdChar).mono fun b d h2 x hx => by
      rw [h.2] at hx
      rcases List.mem_cons.mp hx with rfl | hx
      · exact ⟨by decide, by decide, by decide⟩
      · exact quiet_id (h2.2.2 x hx)) fun _ _ h => ⟨rfl, h⟩)) rfl
theorem qlex_unsignedInt : QuietLex unsignedInt := qlex_tokP (fun n => lex_unsignedIntImpl.mono fun _ _ h => ⟨h.1, fun x hx => quiet_id (unsigned_id h.2.1 x hx)⟩) rfl
theorem qlex_int : QuietLex int := qlex_tokP (fun n => lex_intImpl.mono fun _ _ h => ⟨h.1, fun x hx => quiet_id (int_id h.2.1 x hx)⟩) rfl
theorem qlex_float : QuietLex float := qlex_tokP (fun n => lex_floatImpl.mono fun _ _ h => ⟨h.1, fun x hx => quiet_id (float_id h.2 x hx)⟩) rfl
theorem qlex_share : QuietLex share := qlex_tokP (fun n => lex_verify (qlex_word n) fun _ _ h _ => h) rfl
theorem qlex_instrName : QuietLex instrName := qlex_tokP (fun n => lex_context _ (qlex_word n)) rfl
theorem qlex_memArg : QuietLex memArg := qlex_tokP (fun n => lex_take (Q := fun _ c => ∀ x ∈ c, QuietC x)
    (lex_bind (Q := fun _ c => ∀ x ∈ c, QuietC x) (lex_alt2 ((lex_lit _).mono fun _ _ h => by rw [h.2]; unfold QuietC; decide) ((lex_lit _).mono fun _ _ h => by rw [h.2]; unfold QuietC; decide))
      fun _ c h => lex_bind (lex_lit _) fun _ d hd => lex_unsignedIntImpl.mono fun _ e he x hx => by
        obtain ⟨_, rfl⟩ := hd
        rcases List.mem_append.mp hx with hx | hx
        · exact h x hx
        · rcases List.mem_append.mp hx with hx | hx
          · rw [List.mem_singleton.mp hx]; unfold QuietC; decide
          · exact quiet_id (unsigned_id he.2.1 x hx)) fun _ _ h => ⟨rfl, h⟩) rfl
theorem qlex_wordMap {f : Text → Option (List Green)} (hf : ∀ w x, f w = some x → ∃ k, x = [.tok k w] ∧ quietKind k = true) : QuietLex (verifyMap f word) :=
  fun n => lex_verifyMap (qlex_word n) fun a c x h1 h2 => by
    obtain ⟨rfl, hq⟩ := h1
    obtain ⟨k, rfl, hk⟩ := hf _ _ h2
    simp only [Green.textL, Green.text, Green.toksL, Green.toks, List.append_nil, List.mem_singleton, forall_eq, true_and]
    exact ⟨hk, hq⟩
theorem qlex_refType : QuietLex refType := qlex_context (qlex_wordMap fun w x h => by
  split at h <;> cases h
  exact ⟨_, rfl, rfl⟩)
theorem qlex_heapType : QuietLex heapType := qlex_wordMap fun w x h => by
  split at h <;> cases h
  exact ⟨_, rfl, rfl⟩
theorem qlex_valType : QuietLex valType := fun n => lex_map (Q := fun g c => g.text = c ∧ ∀ kt ∈ g.toks, quietKind kt.1 = true ∧ ∀ c ∈ kt.2, QuietC c)
    (lex_context _ (lex_verifyMap (qlex_word n) fun a c x h1 h2 => by
      obtain ⟨rfl, hq⟩ := h1
      obtain ⟨k, rfl, _, hk⟩ := valTypeTok_shape h2
      simp only [Green.text, Green.toks, List.mem_singleton, forall_eq, true_and]
      exact ⟨by rcases hk with rfl | rfl | rfl <;> rfl, hq⟩)) fun a c h => by
    simpa only [Green.textL, Green.text, Green.toksL, Green.toks, List.append_nil] using h

theorem cl_keyword {kw : Text} (h : '$' ∉ kw) : Cl J b GV2 st n (keyword kw) (keyword kw) := cl_leaf (fun _ => gsim_keyword h) qlex_keyword
theorem cl_ident : Cl J b GV2 st n ident ident := cl_leaf (fun _ => gsim_ident) qlex_ident
theorem cl_unsignedInt : Cl J b GV2 st n unsignedInt unsignedInt := cl_leaf (fun _ => gsim_unsignedInt) qlex_unsignedInt
theorem cl_int : Cl J b GV2 st n int int := cl_leaf (fun _ => gsim_int) qlex_int
theorem cl_float : Cl J b GV2 st n float float := cl_leaf (fun _ => gsim_float) qlex_float
theorem cl_share : Cl J b GV2 st n share share := cl_leaf (fun _ => gsim_share) qlex_share
theorem cl_instrName : Cl J b GV2 st n instrName instrName := cl_leaf (fun _ => gsim_instrName) qlex_instrName
theorem cl_memArg : Cl J b GV2 st n memArg memArg := cl_leaf (fun _ => gsim_memArg) qlex_memArg
theorem cl_refType : Cl J b GV2 st n refType refType := cl_leaf (fun _ => gsim_refType) qlex_refType
theorem cl_heapType : Cl J b GV2 st n heapType heapType := cl_leaf (fun _ => gsim_heapType) qlex_heapType
theorem cl_valType : Cl J b GV2 st n valType valType := cl_leaf (fun _ => gsim_valType) qlex_valType

/-! ### White space, comments and parentheses -/

theorem qlex_ws : QuietLex ws := qlex_tokP (fun n => (lex_takeWhile1 isMultispace).mono fun _ _ h => ⟨h.1, fun x hx => by
  exact (by decide : ∀ y ∈ blanks, y ≠ '"' ∧ y ≠ '(' ∧ y ≠ ';') x (isMultispace_mem (h.2.2 x hx))⟩) rfl
theorem cl_ws : Cl J b GV2 st n ws ws := cl_leaf (fun _ => gsim_ws) qlex_ws

theorem whole_tok {p : G} (h : ∀ n, Lex dbg n (fun gs c => Toks IsTriv gs c ∧ c ≠ []) p) : Whole p := whole_lex h fun _ _ h => h.1.1

theorem lineComment_ok {s s1 : St} {a : List Green} (h : lineComment s = .ok a s1) : ∃ t, a = [.tok .LINE_COMMENT t] ∧ LineAt t s1.rest := by
  have hl := lex_lineComment (dbg := false) (n := s.rest.length) s (Nat.le_refl _)
  rw [h] at hl
  obtain ⟨c, _, ⟨ht, hs⟩, _⟩ := hl
  obtain ⟨t, h1, rfl⟩ := map_ok h
  obtain ⟨k, t', e, hsh, _⟩ := hs _ (.head _)
  cases e
  obtain ⟨r, e, n1, n2⟩ := hsh
  refine ⟨t, rfl, r, n1, n2, e, ?_⟩
  unfold P.take at h1
  cases hb : bind (lit [';', ';']) (fun _ => tillLineEnding) s <;> simp only [hb] at h1 <;> cases h1
  obtain ⟨_, s4, _, h2⟩ := bind_ok hb
  obtain ⟨_, s5, h3, h4⟩ := bind_ok h2
  unfold P.takeWhile0 at h3
  cases h3
  dsimp only at h4
  cases hr : s4.rest.dropWhile (fun c => c != '\r' && c != '\n') with
  | nil => rw [hr] at h4; cases h4; exact .inl rfl
  | cons c cs =>
    have hc := List.head_dropWhile_not (fun c => c != '\r' && c != '\n') (l := s4.rest) (by rw [hr]; simp)
    simp only [hr, List.head_cons] at hc
    rw [hr] at h4
    by_cases h13 : c = '\r'
    · subst h13
      cases cs with
      | nil => cases h4
      | cons d ds =>
        by_cases h10 : d = '\n'
        · subst h10; cases h4; exact .inr (.inr ⟨ds, rfl⟩)
        · split at h4
          · rename_i heq; cases heq; exact absurd rfl h10
          · cases h4
          · rename_i hne; exact absurd rfl (hne _)
    · have h10 : c = '\n' := by
        have : (c == '\r') = false := by simpa using h13
        simpa [bne, this] using hc
      subst h10
      cases h4; exact .inr (.inl ⟨cs, rfl⟩)

theorem cl_lineComment : Cl J b GV2 st n lineComment lineComment :=
  cl_raw (fun _ => gsim_lineComment) (whole_tok (dbg := false) fun _ => lex_lineComment) fun c r a s s1 hp _ h1 ht ho hi _ => by
    obtain ⟨t, rfl, hl⟩ := lineComment_ok hp
    simp only [Green.textL, Green.text, List.append_nil] at ht
    rw [h1] at hl
    subst ht
    refine ⟨J.line ho hi hl, ?_, trivial⟩
    simpa [Green.toksL, Placed1] using hl

theorem cl_blockComment : Cl J b GV2 st n (blockComment dbg) (blockComment dbg) :=
  cl_raw (fun _ => gsim_blockComment) (whole_tok fun _ => lex_blockComment) fun c r a s s1 hp _ h1 ht ho hi _ => by
    have hl := lex_blockComment (dbg := dbg) (n := s.rest.length) s (Nat.le_refl _)
    rw [hp] at hl
    obtain ⟨_, _, ⟨_, hs⟩, _⟩ := hl
    obtain ⟨t, rfl⟩ := blockComment_ok hp
    obtain ⟨k, t', e, hsh, _⟩ := hs _ (.head _)
    cases e
    simp only [Green.textL, Green.text, List.append_nil] at ht
    subst ht
    exact ⟨J.block ho hi hsh, hsh, trivial⟩

theorem cl_lParen : Cl J true GV2 st n lParen lParen :=
  cl_raw (fun _ => gsim_lParen) (whole_lex (dbg := false) (fun _ => lexTok_lParen) fun _ _ h => h.1.1) fun c r a s s1 hp hs h1 ht ho hi hb => by
    obtain ⟨t, hl, rfl⟩ := map_ok (context_ok hp)
    have ha := lit_adv hl
    have hw : t = ['('] := by
      unfold P.lit at hl
      split at hl <;> cases hl
      rfl
    subst hw
    simp only [Green.textL, Green.text, List.append_nil] at ht
    have hc : c = [.ch '('] := by
      match c, ht with
      | .ch x :: c, ht =>
        simp only [lft, Seg.l, List.singleton_append, List.cons.injEq] at ht
        have := (lft_nil (ss := c) (bs := true) fun y hy => ho y (by simp [hy])).mp ht.2.symm
        subst this
        rw [ht.1]
      | .name x y :: c, ht =>
        obtain ⟨⟨r, _, rfl, _⟩, _⟩ := ho (.name x y) (by simp)
        simp [lft, Seg.l] at ht
    subst hc
    have hno := hb rfl
    simp only [List.cons_append, List.nil_append, lft, Seg.l] at hno hi ho
    exact ⟨J.paren ho.tail hi hno, ⟨rfl, by simpa [Green.toksL] using hno⟩, trivial⟩

/-! ### Combinators -/

theorem cl_nil : Cl J b GV2 false n (pure []) (pure []) := cl_pure fun _ => .nil
theorem cl_seq_nil : Cl J b GV2 false n (seq []) (seq []) := cl_nil
theorem cl_seq_cons {p q : G} {ps qs : List G} {st1 st2 : Bool} {m : Nat} (hp : Cl J b GV2 st1 n p q) (hps : Cl J false GV2 st2 m (seq ps) (seq qs))
    (hm : n ≤ m ∨ (st1 = true ∧ m = n - 1)) (hst : st = (st1 || st2) := by rfl) : Cl J b GV2 st n (seq (p :: ps)) (seq (q :: qs)) := by
  refine cl_bind (st1 := st1) (st2 := st2) hp (fun _ => mono_map hps.mono) (fun c r a a' hv hc s s' hl ha => ?_) hst
  have hlen : r.length < m := by
    rcases hm with h | ⟨h1, rfl⟩
    · omega
    · have := List.length_pos_iff.mpr (hc h1); omega
  have hmap : Cl J false (fun d r' x y => r = d ++ r' → GV2 (c ++ d) r' (a ++ x) (a' ++ y)) st2 m (seq ps) (seq qs) :=
    hps.imp fun d r' x y hg e => by subst e; exact hv.append hg
  rcases hmap.sim r s s' hlen ha (fun h => by cases h) with h | h
  · exact .inl (bad_map h)
  · right
    unfold P.map P.bind P.pure
    revert h
    cases seq ps s <;> cases seq qs s' <;> simp only [COut] <;> try (intro h; exact h)
    rintro ⟨d, r', rfl, h6, h7, h8⟩
    exact ⟨d, r', rfl, h6, h7 rfl, h8⟩
theorem cl_seq_cons0 {p q : G} {ps qs : List G} (hp : Cl J b GV2 false n p q) (hps : Cl J false GV2 false n (seq ps) (seq qs)) :
    Cl J b GV2 false n (seq (p :: ps)) (seq (q :: qs)) := cl_seq_cons hp hps (.inl (Nat.le_refl _))
theorem cl_seq_consC {p q : G} {ps qs : List G} (hp : Cl J b GV2 true n p q) (hps : Cl J false GV2 false (n - 1) (seq ps) (seq qs)) :
    Cl J b GV2 st n (seq (p :: ps)) (seq (q :: qs)) := Cl.weak (cl_seq_cons hp hps (.inr ⟨rfl, rfl⟩))
theorem cl_optG {p q : G} (h : Cl J b GV2 st n p q) : Cl J b GV2 false n (optG p) (optG q) :=
  cl_map (V := fun c r (a a' : Option (List Green)) => GV2 c r (a.getD []) (a'.getD [])) (cl_opt h (fun _ _ _ _ h => h) fun _ => .nil) fun _ _ _ _ h => h
theorem cl_many {p q : G} (h : Cl J false GV2 true n p q) : Cl J b GV2 false n (many dbg p) (many dbg q) :=
  cl_map (V := fun c r (a a' : List (List Green)) => GV2 c r a.flatten a'.flatten) (cl_repeat0 h (fun _ => .nil) fun _ _ _ _ _ _ _ h1 h2 => h1.append h2) fun _ _ _ _ h => h
theorem cl_many1 {p q : G} (h : Cl J false GV2 true n p q) : Cl J b GV2 st n (many1 dbg p) (many1 dbg q) :=
  Cl.weak (cl_map (V := fun c r (a a' : List (List Green)) => GV2 c r a.flatten a'.flatten) (cl_repeat1 h (fun _ => .nil) fun _ _ _ _ _ _ _ h1 h2 => h1.append h2) fun _ _ _ _ h => h)
theorem cl_node {p q : G} {k : Kind} (h : Cl J b GV2 st n p q) : Cl J b GV2 st n (nodeP k p) (nodeP k q) := cl_map h fun _ _ _ _ h => h.node k
theorem cl_must {p q : G} (h : Cl J b GV2 st n p q) : Cl J b GV2 false n (must p) (must q) := by
  refine ⟨mono_must h.mono, fun ss s s' hl ha hb => ?_⟩
  unfold must
  rcases h.sim ss s s' hl ha hb with h | h
  · left
    cases h1 : p s <;> simp only [h1] at h ⊢ <;> try exact h
    exact record_errs _ _
  · cases h1 : p s <;> cases h2 : q s' <;> simp only [h1, h2, COut] at h ⊢
    · obtain ⟨c, r, h3, h4, h5, _⟩ := h
      exact .inr ⟨c, r, h3, h4, h5, (fun h => by cases h)⟩
    · exact .inl (record_errs _ _)

theorem cl_trivias : Cl J b GV2 false n (trivias dbg) (trivias dbg) := cl_many (cl_alt_three cl_ws cl_lineComment cl_blockComment)

theorem gives_comment {c t : Text} (h : BlockComment c) : Gives (alt [ws, lineComment, blockComment dbg]) (c ++ t) [.tok .BLOCK_COMMENT c] t := by
  have hc : ∃ x, c = '(' :: x := by cases h; exact ⟨_, rfl⟩
  obtain ⟨x, rfl⟩ := hc
  refine gives_alt_right ?_ (gives_alt_right ?_ (gives_alt_left (gives_blockComment h)))
  · exact refuses_tokP (refuses_run1 (by rintro c x h; cases h; rfl))
  · exact refuses_tokP (refuses_take (refuses_bind (refuses_lit (by rintro ⟨x, h⟩; cases h))))

theorem trivias_clear {s s1 : St} {a : List Green} (h : trivias dbg s = .ok a s1) : ¬ Starts s1.rest := by
  rintro ⟨c, r, hc, e⟩
  have hs := Reg.settled h
  unfold Reg.Settled trivias at hs
  obtain ⟨l, h1, h2⟩ := map_ok hs
  obtain ⟨pos, errs, he⟩ : ∃ pos errs, s1 = ⟨c ++ r, pos, errs⟩ := ⟨s1.pos, s1.errs, by rw [← e]⟩
  subst he
  obtain ⟨pos', h3⟩ := gives_comment (dbg := dbg) (t := r) hc pos errs
  unfold repeat0 repeatF at h1
  simp only [h3] at h1
  have hl : ¬ r.length = (c ++ r).length := by
    cases hc; simp; omega
  rw [if_neg hl] at h1
  obtain ⟨l', _, rfl⟩ := map_ok h1
  cases h2

theorem cl_post {α β : Type} {V : List Seg → List Seg → α → β → Prop} {p : P α} {q : P β} {U : Text → Prop} (h : Cl J b V st n p q) (hu : ∀ s a s1, p s = .ok a s1 → U s1.rest) :
    Cl J b (fun c r a a' => V c r a a' ∧ U (lft r)) st n p q := by
  refine ⟨h.mono, fun ss s s' hl ha hb => (h.sim ss s s' hl ha hb).imp id fun h => ?_⟩
  cases h1 : p s <;> cases h2 : q s' <;> simp only [h1, h2, COut] at h ⊢
  · obtain ⟨c, r, e, h3, h4, h5⟩ := h
    exact ⟨c, r, e, h3, ⟨h4, by rw [← h3.at_.l]; exact hu _ _ _ h1⟩, h5⟩
  · exact h

theorem cl_trivClear : Cl J b (fun c r a a' => GV2 c r a a' ∧ ¬ Starts (lft r)) false n (trivias dbg) (trivias dbg) :=
  cl_post (U := fun t => ¬ Starts t) cl_trivias fun _ _ _ h => trivias_clear h

/-- After white space and comments no comment begins. -/
theorem cl_afterTriv {α β : Type} {U : List Seg → List Seg → α → β → Prop} {W : List Seg → List Seg → α → β → Prop} {f : List Green → P α} {g : List Green → P β}
    (hm : ∀ a, Mono (f a)) (hf : ∀ c r a a', GV2 c r a a' → Cl J true (fun d r' x y => r = d ++ r' → W (c ++ d) r' x y) st n (f a) (g a')) :
    Cl J b W st n (bind (trivias dbg) f) (bind (trivias dbg) g) := by
  refine cl_bind (st1 := false) (st2 := st) cl_trivClear hm (fun c r a a' hv _ s s' hl ha => ?_) (by simp)
  rcases (hf c r a a' hv.1).sim r s s' (by omega) ha fun _ => hv.2 with h | h
  · exact .inl h
  · right
    revert h
    cases f a s <;> cases g a' s' <;> simp only [COut] <;> try (intro h; exact h)
    rintro ⟨d, r', rfl, h6, h7, h8⟩
    exact ⟨d, r', rfl, h6, h7 rfl, h8⟩

theorem cl_tp {p q : G} (h : Cl J true GV2 st n p q) : Cl J b GV2 st n (tp dbg p) (tp dbg q) := by
  refine cl_afterTriv (U := GV2) (fun _ => mono_map ?_) fun c r a a' hv => ?_
  · rw [seq_single]; exact h.mono
  · rw [seq_single, seq_single]
    exact cl_map h fun d r' x y hg e => by subst e; exact hv.append hg
theorem cl_trivSeq {p q : G} (hp : Cl J true GV2 st n p q) : Cl J b GV2 st n (seq [trivias dbg, p]) (seq [trivias dbg, q]) := cl_tp hp

end Verif.Clean
