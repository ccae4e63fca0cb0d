import Verif.Lemmas.TokenLex2
import Verif.Model.Grammar
/-!
Helper lemmas: what parsers do on given texts.  `Reads p t a w`: with `t` before `w`, the parser takes `t`, yields `a`
and reports nothing.  `Rejects p w`: the parser fails on `w` and reports nothing.
-/
namespace Verif
open P

variable {α β : Type} {dbg : Bool}

/-- The parser takes exactly `t` and yields `a` when `w` follows. -/
def Reads (p : P α) (t : Text) (a : α) (w : Text) : Prop :=
  ∀ pos errs, p ⟨t ++ w, pos, errs⟩ = .ok a ⟨w, pos + bytes t, errs⟩

/-- The parser fails without reporting an error. -/
def Rejects (p : P α) (w : Text) : Prop :=
  ∀ pos errs, ∃ e s', p ⟨w, pos, errs⟩ = .fail e s' ∧ s'.errs = errs

theorem reset_eq {w : Text} {pos : Nat} {errs : List Err} {s' : St} (h : s'.errs = errs) : s'.resetTo ⟨w, pos, errs⟩ = ⟨w, pos, errs⟩ := by
  simp [St.resetTo, h]

/-! ### Combinators -/

theorem Reads.of_eq {p : P α} {t t' : Text} {a a' : α} {w : Text} (h : Reads p t a w) (ht : t = t') (ha : a = a') : Reads p t' a' w := by
  subst ht ha; exact h

theorem reads_pure {a : α} {w : Text} : Reads (P.pure a) [] a w := fun pos errs => by simp [P.pure, bytes_nil]

theorem reads_bind {p : P α} {f : α → P β} {t1 t2 w : Text} {a : α} {b : β} (h1 : Reads p t1 a (t2 ++ w)) (h2 : Reads (f a) t2 b w) :
    Reads (bind p f) (t1 ++ t2) b w := by
  intro pos errs
  unfold P.bind
  rw [List.append_assoc, h1 pos errs]
  simp only
  rw [h2]
  simp [bytes_append, Nat.add_assoc]

theorem rejects_bind {p : P α} {f : α → P β} {w : Text} (h : Rejects p w) : Rejects (bind p f) w := by
  intro pos errs
  obtain ⟨e, s', h1, h2⟩ := h pos errs
  exact ⟨e, s', by unfold P.bind; rw [h1], h2⟩

theorem rejects_bind2 {p : P α} {f : α → P β} {t w : Text} {a : α} (h1 : Reads p t a w) (h2 : Rejects (f a) w) : Rejects (bind p f) (t ++ w) := by
  intro pos errs
  obtain ⟨e, s', h3, h4⟩ := h2 (pos + bytes t) errs
  exact ⟨e, s', by unfold P.bind; rw [h1 pos errs]; exact h3, h4⟩

theorem reads_map {p : P α} {f : α → β} {t w : Text} {a : α} (h : Reads p t a w) : Reads (map f p) t (f a) w := by
  intro pos errs
  unfold P.map P.bind
  rw [h pos errs]; rfl

theorem rejects_map {p : P α} {f : α → β} {w : Text} (h : Rejects p w) : Rejects (map f p) w := rejects_bind h

theorem reads_context {p : P α} {m : Msg} {t w : Text} {a : α} (h : Reads p t a w) : Reads (context m p) t a w := by
  intro pos errs; unfold P.context; rw [h pos errs]

theorem rejects_context {p : P α} {m : Msg} {w : Text} (h : Rejects p w) : Rejects (context m p) w := by
  intro pos errs
  obtain ⟨e, s', h1, h2⟩ := h pos errs
  exact ⟨_, s', by unfold P.context; rw [h1], h2⟩

theorem rejects_fail {w : Text} : Rejects (P.fail : P α) w := fun _ _ => ⟨_, _, rfl, rfl⟩

theorem reads_opt {p : P α} {t w : Text} {a : α} (h : Reads p t a w) : Reads (opt p) t (some a) w := by
  intro pos errs; unfold P.opt; rw [h pos errs]

theorem reads_opt_none {p : P α} {w : Text} (h : Rejects p w) : Reads (opt p) [] none w := by
  intro pos errs
  obtain ⟨e, s', h1, h2⟩ := h pos errs
  unfold P.opt
  rw [List.nil_append, h1]
  simp [reset_eq h2, bytes_nil]

theorem reads_peek {p : P α} {t w : Text} {a : α} (h : Reads p t a w) : Reads (peek p) [] a (t ++ w) := by
  intro pos errs
  unfold P.peek
  rw [List.nil_append, h pos errs]
  simp [St.resetTo, bytes_nil]

theorem rejects_peek {p : P α} {w : Text} (h : Rejects p w) : Rejects (peek p) w := by
  intro pos errs
  obtain ⟨e, s', h1, h2⟩ := h pos errs
  exact ⟨e, _, by unfold P.peek; rw [h1], by simp [St.resetTo, h2]⟩

theorem reads_not {p : P α} {w : Text} (h : Rejects p w) : Reads (P.not p) [] () w := by
  intro pos errs
  obtain ⟨e, s', h1, h2⟩ := h pos errs
  unfold P.not
  rw [List.nil_append, h1]
  simp [reset_eq h2, bytes_nil]

theorem reads_alt2 {p q : P α} {t w : Text} {a : α} (h : Reads p t a w) : Reads (alt2 p q) t a w := by
  intro pos errs; unfold P.alt2; rw [h pos errs]

theorem reads_alt2_right {p q : P α} {t w : Text} {a : α} (hp : Rejects p (t ++ w)) (h : Reads q t a w) : Reads (alt2 p q) t a w := by
  intro pos errs
  obtain ⟨e, s', h1, h2⟩ := hp pos errs
  unfold P.alt2
  rw [h1]
  simp only [reset_eq h2]
  exact h pos errs

theorem rejects_alt2 {p q : P α} {w : Text} (hp : Rejects p w) (hq : Rejects q w) : Rejects (alt2 p q) w := by
  intro pos errs
  obtain ⟨e, s', h1, h2⟩ := hp pos errs
  obtain ⟨e', s'', h3, h4⟩ := hq pos errs
  refine ⟨e', s'', ?_, h4⟩
  unfold P.alt2
  rw [h1]
  simp only [reset_eq h2]
  exact h3

theorem alt_cons {p q : P α} {ps : List (P α)} : alt (p :: q :: ps) = alt2 p (alt (q :: ps)) := rfl
theorem alt_one {p : P α} : alt [p] = p := rfl

theorem reads_verifyMap {p : P α} {f : α → Option β} {t w : Text} {a : α} {b : β} (h : Reads p t a w) (hf : f a = some b) :
    Reads (verifyMap f p) t b w := by
  intro pos errs; unfold P.verifyMap; rw [h pos errs]; simp [hf]

theorem rejects_verifyMap {p : P α} {f : α → Option β} {w : Text} (h : Rejects p w) : Rejects (verifyMap f p) w := by
  intro pos errs
  obtain ⟨e, s', h1, h2⟩ := h pos errs
  exact ⟨e, s', by unfold P.verifyMap; rw [h1], h2⟩

theorem rejects_verifyMap2 {p : P α} {f : α → Option β} {t w : Text} {a : α} (h : Reads p t a w) (hf : f a = none) :
    Rejects (verifyMap f p) (t ++ w) := by
  intro pos errs
  refine ⟨.new, ⟨t ++ w, pos, errs⟩, ?_, rfl⟩
  unfold P.verifyMap
  rw [h pos errs]
  simp [hf, St.resetTo]

theorem reads_verify {p : P α} {f : α → Bool} {t w : Text} {a : α} (h : Reads p t a w) (hf : f a = true) : Reads (verify f p) t a w :=
  reads_verifyMap h (by simp [hf])

theorem rejects_verify {p : P α} {f : α → Bool} {w : Text} (h : Rejects p w) : Rejects (verify f p) w := rejects_verifyMap h

theorem rejects_verify2 {p : P α} {f : α → Bool} {t w : Text} {a : α} (h : Reads p t a w) (hf : f a = false) : Rejects (verify f p) (t ++ w) :=
  rejects_verifyMap2 h (by simp [hf])

theorem reads_take {p : P α} {t w : Text} {a : α} (h : Reads p t a w) : Reads (take p) t t w := by
  intro pos errs
  unfold P.take
  rw [h pos errs]
  simp

theorem rejects_take {p : P α} {w : Text} (h : Rejects p w) : Rejects (take p) w := by
  intro pos errs
  obtain ⟨e, s', h1, h2⟩ := h pos errs
  exact ⟨e, s', by unfold P.take; rw [h1], h2⟩

theorem reads_void {p : P α} {t w : Text} {a : α} (h : Reads p t a w) : Reads (void p) t () w := reads_map h
theorem rejects_void {p : P α} {w : Text} (h : Rejects p w) : Rejects (void p) w := rejects_map h

theorem reads_any {c : Char} {w : Text} : Reads any [c] c w := by
  intro pos errs; simp [P.any, bytes_cons, bytes_nil]

theorem rejects_any : Rejects any [] := fun _ _ => ⟨_, _, rfl, rfl⟩

theorem reads_oneOf {f : Char → Bool} {c : Char} {w : Text} (h : f c = true) : Reads (oneOf f) [c] c w := reads_verify reads_any h

theorem rejects_oneOf {f : Char → Bool} {w : Text} (h : ∀ c ∈ w.head?, f c = false) : Rejects (oneOf f) w := by
  cases w with
  | nil => exact rejects_verify rejects_any
  | cons c w => exact rejects_verify2 (t := [c]) reads_any (h c (by simp))

theorem reads_lit {t w : Text} : Reads (lit t) t t w := by
  intro pos errs
  unfold P.lit
  rw [if_pos (List.isPrefixOf_iff_prefix.mpr ⟨w, rfl⟩)]
  simp

theorem rejects_lit {t w : Text} (h : ¬ t <+: w) : Rejects (lit t) w := fun _ _ => ⟨_, _, lit_fail h, rfl⟩

/-- The text does not start with a character that the predicate holds of. -/
def NotAt (f : Char → Bool) (w : Text) : Prop := ∀ c ∈ w.head?, f c = false

theorem takeWhile_append' {f : Char → Bool} {t w : Text} (ht : ∀ c ∈ t, f c = true) (hw : NotAt f w) :
    (t ++ w).takeWhile f = t ∧ (t ++ w).dropWhile f = w := by
  induction t with
  | nil =>
    cases w with
    | nil => simp
    | cons c w => simp [hw c (by simp)]
  | cons c t ih =>
    have := ih fun c hc => ht c (List.mem_cons_of_mem _ hc)
    simp [ht c (by simp), this.1, this.2]

theorem reads_takeWhile0 {f : Char → Bool} {t w : Text} (ht : ∀ c ∈ t, f c = true) (hw : NotAt f w) : Reads (takeWhile0 f) t t w := by
  intro pos errs
  obtain ⟨h1, h2⟩ := takeWhile_append' ht hw
  simp [P.takeWhile0, h1, h2]

theorem reads_takeWhile1 {f : Char → Bool} {t w : Text} (hne : t ≠ []) (ht : ∀ c ∈ t, f c = true) (hw : NotAt f w) :
    Reads (takeWhile1 f) t t w := by
  intro pos errs
  obtain ⟨h1, h2⟩ := takeWhile_append' ht hw
  unfold P.takeWhile1
  simp only [h1, h2]
  cases t with
  | nil => exact absurd rfl hne
  | cons c t => rfl

theorem rejects_takeWhile1 {f : Char → Bool} {w : Text} (hw : NotAt f w) : Rejects (takeWhile1 f) w := by
  intro pos errs
  obtain ⟨h1, h2⟩ := takeWhile_append' (f := f) (t := []) (w := w) (by simp) hw
  rw [List.nil_append] at h1
  refine ⟨.new, ⟨w, pos, errs⟩, ?_, rfl⟩
  unfold P.takeWhile1
  simp only [h1]

/-! ### Repetition -/

/-- The parser takes the texts one after the other, each being non-empty, and then fails. -/
inductive ReadsList (p : P α) : Text → List α → Text → Prop
  | nil {w} : Rejects p w → ReadsList p [] [] w
  | cons {t ts a as w} : t ≠ [] → Reads p t a (ts ++ w) → ReadsList p ts as w → ReadsList p (t ++ ts) (a :: as) w

theorem reads_repeatF {p : P α} {t w : Text} {as : List α} (h : ReadsList p t as w) :
    ∀ fuel, (t ++ w).length < fuel → Reads (repeatF dbg p fuel) t as w := by
  induction h with
  | nil hr =>
    intro fuel hf
    cases fuel with
    | zero => omega
    | succ fuel =>
      intro pos errs
      obtain ⟨e, s', h1, h2⟩ := hr pos errs
      unfold P.repeatF
      rw [List.nil_append, h1]
      simp [reset_eq h2, bytes_nil]
  | @cons t ts a as w hne hp _ ih =>
    intro fuel hf
    cases fuel with
    | zero => omega
    | succ fuel =>
      intro pos errs
      have hl : 0 < t.length := by
        cases t with
        | nil => exact absurd rfl hne
        | cons _ _ => simp
      have := ih fuel (by simp only [List.length_append] at hf ⊢; omega) (pos + bytes t) errs
      unfold P.repeatF
      rw [List.append_assoc, hp pos errs]
      simp only
      rw [if_neg (by simp only [List.length_append]; omega)]
      unfold P.map P.bind
      rw [this]
      simp [P.pure, bytes_append, Nat.add_assoc]

theorem reads_repeat0 {p : P α} {t w : Text} {as : List α} (h : ReadsList p t as w) : Reads (repeat0 dbg p) t as w := by
  intro pos errs
  exact reads_repeatF h _ (Nat.lt_succ_self _) pos errs

theorem reads_repeat1 {p : P α} {t ts w : Text} {a : α} {as : List α} (h1 : Reads p t a (ts ++ w)) (h2 : ReadsList p ts as w) :
    Reads (repeat1 dbg p) (t ++ ts) (a :: as) w := by
  intro pos errs
  unfold P.repeat1
  rw [List.append_assoc, h1 pos errs]
  simp only
  rw [reads_map (reads_repeat0 h2)]
  simp [bytes_append, Nat.add_assoc]

theorem rejects_repeat1 {p : P α} {w : Text} (h : Rejects p w) : Rejects (repeat1 dbg p) w := by
  intro pos errs
  obtain ⟨e, s', h1, h2⟩ := h pos errs
  exact ⟨e, _, by unfold P.repeat1; rw [h1], by simp [St.resetTo, h2]⟩

theorem reads_many {p : G} {t w : Text} {as : List (List Green)} (h : ReadsList p t as w) : Reads (many dbg p) t as.flatten w :=
  reads_map (reads_repeat0 h)

theorem reads_many1 {p : G} {t ts w : Text} {a : List Green} {as : List (List Green)} (h1 : Reads p t a (ts ++ w)) (h2 : ReadsList p ts as w) :
    Reads (many1 dbg p) (t ++ ts) (a ++ as.flatten) w := reads_map (reads_repeat1 h1 h2)

/-! ### Sequences, nodes, tokens -/

theorem reads_seq_nil {w : Text} : Reads (seq []) [] [] w := reads_pure

theorem reads_seq_cons {p : G} {ps : List G} {t1 t2 w : Text} {a b : List Green} (h1 : Reads p t1 a (t2 ++ w)) (h2 : Reads (seq ps) t2 b w) :
    Reads (seq (p :: ps)) (t1 ++ t2) (a ++ b) w := reads_bind h1 (reads_map h2)

theorem rejects_seq {p : G} {ps : List G} {w : Text} (h : Rejects p w) : Rejects (seq (p :: ps)) w := rejects_bind h

theorem rejects_seq2 {p : G} {ps : List G} {t w : Text} {a : List Green} (h1 : Reads p t a w) (h2 : Rejects (seq ps) w) :
    Rejects (seq (p :: ps)) (t ++ w) := rejects_bind2 h1 (rejects_map h2)

theorem reads_optG {p : G} {t w : Text} {a : List Green} (h : Reads p t a w) : Reads (optG p) t a w := reads_map (reads_opt h)
theorem reads_optG_none {p : G} {w : Text} (h : Rejects p w) : Reads (optG p) [] [] w := reads_map (reads_opt_none h)
theorem reads_nodeP {k : Kind} {p : G} {t w : Text} {a : List Green} (h : Reads p t a w) : Reads (nodeP k p) t [.node k a] w := reads_map h
theorem rejects_nodeP {k : Kind} {p : G} {w : Text} (h : Rejects p w) : Rejects (nodeP k p) w := rejects_map h
theorem reads_tokP {k : Kind} {p : P Text} {t w u : Text} (h : Reads p t u w) : Reads (tokP k p) t [.tok k u] w := reads_map h
theorem rejects_tokP {k : Kind} {p : P Text} {w : Text} (h : Rejects p w) : Rejects (tokP k p) w := rejects_map h

theorem reads_must {p : G} {t w : Text} {a : List Green} (h : Reads p t a w) : Reads (must p) t a w := by
  intro pos errs; unfold must; rw [h pos errs]

theorem reads_lParen {w : Text} : Reads lParen ['('] [.tok .L_PAREN ['(']] w := reads_context (reads_tokP reads_lit)

theorem rejects_lParen {w : Text} (h : NotAt (· == '(') w) : Rejects lParen w := by
  refine rejects_context (rejects_tokP (rejects_lit ?_))
  rintro ⟨r, rfl⟩
  have := h '(' (by simp)
  simp at this

/-- Words end where no identifier character follows. -/
theorem reads_word {c : Char} {t w : Text} (hc : isLower c = true) (ht : ∀ c ∈ t, isIdChar c = true) (hw : NotAt isIdChar w) :
    Reads word (c :: t) (c :: t) w :=
  reads_take (reads_bind (t1 := [c]) (t2 := t) (reads_oneOf hc) (reads_takeWhile0 ht hw))

theorem rejects_word {w : Text} (h : NotAt isLower w) : Rejects word w := rejects_take (rejects_bind (rejects_oneOf h))

/-- A text that is a word. -/
def wordText : Text → Bool
  | [] => false
  | c :: t => isLower c && t.all isIdChar

theorem reads_word' {t w : Text} (ht : wordText t = true) (hw : NotAt isIdChar w) : Reads word t t w := by
  cases t with
  | nil => cases ht
  | cons c t =>
    simp only [wordText, Bool.and_eq_true] at ht
    exact reads_word ht.1 (List.all_eq_true.mp ht.2) hw

theorem reads_keyword {kw w : Text} (hk : wordText kw = true) (hw : NotAt isIdChar w) : Reads (keyword kw) kw [.tok .KEYWORD kw] w :=
  reads_context (reads_tokP (reads_verify (reads_word' hk hw) (by simp)))

theorem rejects_keyword {kw t w : Text} (ht : wordText t = true) (hne : t ≠ kw) (hw : NotAt isIdChar w) : Rejects (keyword kw) (t ++ w) :=
  rejects_context (rejects_tokP (rejects_verify2 (reads_word' ht hw) (by simp [hne])))

theorem rejects_keyword' {kw w : Text} (h : NotAt isLower w) : Rejects (keyword kw) w :=
  rejects_context (rejects_tokP (rejects_verify (rejects_word h)))

/-! ### Trivia -/

/-- The text does not start with a blank or a comment. -/
def NoTrivia (w : Text) : Prop := NotAt isMultispace w ∧ ¬ [';', ';'] <+: w ∧ ¬ ['(', ';'] <+: w

theorem rejects_trivia {w : Text} (h : NoTrivia w) : Rejects (alt [ws, lineComment, blockComment dbg]) w := by
  rw [alt_cons, alt_cons, alt_one]
  refine rejects_alt2 (rejects_tokP (rejects_takeWhile1 h.1)) (rejects_alt2 (rejects_tokP (rejects_take (rejects_bind (rejects_lit h.2.1)))) ?_)
  intro pos errs
  unfold blockComment blockCommentImpl
  exact rejects_tokP (rejects_take (rejects_bind (rejects_lit h.2.2))) pos errs

theorem reads_trivias_nil {w : Text} (h : NoTrivia w) : Reads (trivias dbg) [] [] w := reads_map (reads_repeat0 (.nil (rejects_trivia h)))

theorem reads_tp {p : G} {t1 t2 w : Text} {a b : List Green} (h1 : Reads (trivias dbg) t1 a (t2 ++ w)) (h2 : Reads p t2 b w) :
    Reads (tp dbg p) (t1 ++ t2) (a ++ b) w := by
  have h3 : Reads (seq [p]) t2 b w := (reads_seq_cons (t2 := []) (b := []) (by simpa using h2) reads_seq_nil).of_eq (by simp) (by simp)
  exact reads_seq_cons h1 h3

theorem reads_tp_nil {p : G} {t w : Text} {a : List Green} (hn : NoTrivia (t ++ w)) (h : Reads p t a w) : Reads (tp dbg p) t a w :=
  reads_tp (reads_trivias_nil hn) h

theorem rejects_tp {p : G} {t w : Text} {a : List Green} (h1 : Reads (trivias dbg) t a w) (h2 : Rejects p w) : Rejects (tp dbg p) (t ++ w) :=
  rejects_seq2 h1 (rejects_seq h2)

/-- One blank. -/
theorem reads_blank {w : Text} (h : NoTrivia w) : Reads (trivias dbg) [' '] [.tok .WHITESPACE [' ']] w := by
  refine reads_map (f := List.flatten) (a := [[Green.tok .WHITESPACE [' ']]]) (reads_repeat0 ?_)
  refine ReadsList.cons (t := [' ']) (ts := []) (by simp) ?_ (.nil (rejects_trivia h))
  rw [alt_cons]
  exact reads_alt2 (reads_tokP (reads_takeWhile1 (by simp) (by decide) (by simpa using h.1)))

/-! ### Closing parenthesis and recovery -/

theorem reads_rParen {t w : Text} {a : List Green} (h : Reads (trivias dbg) t a (')' :: w)) :
    Reads (rParen dbg) (t ++ [')']) (a ++ [.tok .R_PAREN [')']]) w := by
  intro pos errs
  unfold rParen rParenF
  have h1 := h pos errs
  have e : t ++ [')'] ++ w = t ++ ')' :: w := by simp
  simp only [e]
  rw [h1]
  simp only
  have h2 : context (Msg.expChar ')') (lit [')']) ⟨')' :: w, pos + bytes t, errs⟩ = .ok [')'] ⟨w, pos + bytes t + bytes [')'], errs⟩ :=
    reads_context (reads_lit (t := [')']) (w := w)) (pos + bytes t) errs
  rw [h2]
  simp [bytes_append, Nat.add_assoc]

theorem reads_retryOnce {p : G} {allowed : List Text} {t1 t2 w : Text} {a b : List Green} (h1 : Reads (trivias dbg) t1 a (t2 ++ w)) (h2 : Reads p t2 b w) :
    Reads (retryOnce dbg p allowed) (t1 ++ t2) (a ++ b) w := by
  intro pos errs
  unfold retryOnce retryRound
  rw [List.append_assoc, h1 pos errs]
  simp only
  rw [h2]
  simp [bytes_append, Nat.add_assoc]

theorem reads_retry {p : G} {allowed : List Text} {t1 t2 w : Text} {a b : List Green} (h1 : Reads (trivias dbg) t1 a (t2 ++ w)) (h2 : Reads p t2 b w) :
    Reads (retry dbg p allowed) (t1 ++ t2) (a ++ b) w := by
  intro pos errs
  unfold retry retryF retryRound
  rw [List.append_assoc, h1 pos errs]
  simp only
  rw [h2]
  simp [bytes_append, Nat.add_assoc]

theorem unexpected_paren {w : Text} {pos : Nat} {errs : List Err} :
    ∃ e, unexpectedToken ⟨')' :: w, pos, errs⟩ = .fail e ⟨')' :: w, pos, errs⟩ := ⟨_, rfl⟩

theorem reads_trivias_paren {w : Text} : Reads (trivias dbg) [] [] (')' :: w) :=
  reads_trivias_nil ⟨by intro c hc; simp at hc; subst hc; rfl, by simp, by simp⟩

theorem rejects_errorTerm {allowed : List Text} {w : Text} : Rejects (errorTerm dbg allowed) (')' :: w) := by
  refine rejects_bind2 (t := []) (a := ()) (reads_peek (t := []) (reads_not ?_)) ?_
  · exact rejects_bind2 (t := []) reads_trivias_paren (rejects_bind (rejects_lit (by simp)))
  · intro pos errs
    unfold errorTermInner
    exact rejects_seq (rejects_tokP (rejects_lit (by simp))) pos errs

/-- Recovery gives up at a closing parenthesis. -/
theorem rejects_retryRound {p : G} {allowed : List Text} {acc : List Green} {again : List Green → G} {t w : Text} {a : List Green}
    (h1 : Reads (trivias dbg) t a (')' :: w)) (h2 : Rejects p (')' :: w)) :
    Rejects (retryRound dbg p allowed acc again) (t ++ ')' :: w) := by
  intro pos errs
  obtain ⟨e, s2, h3, h4⟩ := h2 (pos + bytes t) errs
  obtain ⟨e', h5⟩ := unexpected_paren (w := w) (pos := pos + bytes t) (errs := errs)
  obtain ⟨e'', s6, h6, h7⟩ := rejects_errorTerm (dbg := dbg) (allowed := allowed) (w := w) (pos + bytes t) errs
  unfold retryRound
  rw [h1 pos errs]
  simp only
  rw [h3]
  simp only [reset_eq h4, h5, h6]
  exact ⟨_, _, rfl, by simp [St.resetTo, h7]⟩

end Verif
