import Verif.Lemmas.Accept
/-!
Helper lemmas: accepting the tokens of a list of elements and refusing by the next tokens; a parser accepts a production
when its parts accept the items and refuse what may come after them.
-/
namespace Verif
open P Spec

/-- The tokens of the elements. -/
def lexL (gs : List Green) : List Text := gs.flatMap lexemes

theorem lexL_append (a b : List Green) : lexL (a ++ b) = lexL a ++ lexL b := by simp [lexL]
theorem lexL_cons (a : Green) (b : List Green) : lexL (a :: b) = lexemes a ++ lexL b := rfl
theorem lexL_nil : lexL [] = [] := rfl

/-- The text consists of these tokens, and (`at_`) begins with the first of them. -/
def Lx (at_ : Bool) (t : Text) (ws : List Text) : Prop :=
  match at_ with
  | true => Rdy t ws
  | false => Lexes t ws

theorem Lx.lexes {m : Bool} {t : Text} {ws : List Text} (h : Lx m t ws) : Lexes t ws := by
  cases m with
  | true => exact Rdy.lexes h
  | false => exact h

/-- The parser accepts the elements when these tokens follow. -/
def Acc (m : Bool) (p : G) (gs : List Green) (rest : List Text) : Prop :=
  ∀ t, Lx m t (lexL gs ++ rest) → ∃ out t', Gives p t out t' ∧ stripL out = gs ∧ Lexes t' rest ∧ t'.length ≤ t.length ∧
    (lexL gs ≠ [] → t'.length < t.length)

/-- The parser refuses these tokens. -/
def Rej (m : Bool) (p : P α) (ws : List Text) : Prop := ∀ t, Lx m t ws → Refuses p t

theorem Acc.weak {m : Bool} {p : G} {gs : List Green} {rest : List Text} (h : Acc false p gs rest) : Acc m p gs rest :=
  fun t ht => h t ht.lexes

theorem Rej.weak {m : Bool} {p : P α} {ws : List Text} (h : Rej false p ws) : Rej m p ws := fun t ht => h t ht.lexes

theorem stripL_append (a b : List Green) : stripL (a ++ b) = stripL a ++ stripL b := by
  induction a with
  | nil => rfl
  | cons g a ih =>
    simp only [List.cons_append, stripL, ih]
    split <;> rfl

theorem stripL_blank {l : List Green} (h : ∀ g ∈ l, isBlank g = true) : stripL l = [] := by
  induction l with
  | nil => rfl
  | cons g l ih => simp [stripL, h g (.head _), ih fun x hx => h x (.tail _ hx)]

section
variable {m : Bool} {p q : G} {gs hs : List Green} {rest ws : List Text}

theorem acc_seq_nil : Acc m (seq []) [] rest := fun t ht => ⟨[], t, gives_pure, rfl, by simpa [lexL] using ht.lexes, Nat.le_refl _, by simp [lexL]⟩

theorem acc_seq_cons {ps : List G} (h1 : Acc m p gs (lexL hs ++ rest)) (h2 : Acc false (seq ps) hs rest) :
    Acc m (seq (p :: ps)) (gs ++ hs) rest := by
  intro t ht
  rw [lexL_append, List.append_assoc] at ht
  obtain ⟨o1, t1, g1, s1, l1, n1, k1⟩ := h1 t ht
  obtain ⟨o2, t2, g2, s2, l2, n2, k2⟩ := h2 t1 l1
  refine ⟨o1 ++ o2, t2, gives_bind g1 (gives_map g2), by rw [stripL_append, s1, s2], l2, by omega, fun hne => ?_⟩
  rw [lexL_append] at hne
  by_cases h : lexL gs = []
  · have := k2 (by simpa [h] using hne)
    omega
  · have := k1 h
    omega

theorem rej_seq {ps : List G} (h : Rej m p ws) : Rej m (seq (p :: ps)) ws := fun t ht => refuses_bind (h t ht)

theorem rej_seq2 {ps : List G} (h1 : Acc m p gs ws) (h2 : Rej false (seq ps) ws) : Rej m (seq (p :: ps)) (lexL gs ++ ws) := by
  intro t ht
  obtain ⟨o1, t1, g1, _, l1, _, _⟩ := h1 t ht
  exact refuses_bind2 g1 (refuses_map (h2 t1 l1))

theorem acc_tp (h : Acc true p gs rest) : Acc m (tp dbg p) gs rest := by
  refine Acc.weak ?_
  intro t ht
  obtain ⟨tr, t1, g1, b1, r1, n1⟩ := gives_trivias (dbg := dbg) ht
  obtain ⟨o, t2, g2, s2, l2, n2, k2⟩ := h t1 r1
  refine ⟨tr ++ (o ++ []), t2, gives_bind g1 (gives_map (gives_bind g2 (gives_map gives_pure))), ?_, l2, by omega, fun hne => ?_⟩
  · rw [List.append_nil, stripL_append, stripL_blank b1, s2, List.nil_append]
  · have := k2 hne; omega

theorem rej_tp (h : Rej true p ws) : Rej m (tp dbg p) ws := by
  refine Rej.weak ?_
  intro t ht
  obtain ⟨tr, t1, g1, b1, r1, n1⟩ := gives_trivias (dbg := dbg) ht
  exact refuses_bind2 g1 (refuses_map (refuses_bind (h t1 r1)))

theorem acc_map {f : List Green → List Green} {gs' : List Green} (h : Acc m p gs rest) (hl : lexL gs' = lexL gs)
    (hf : ∀ o, stripL o = gs → stripL (f o) = gs') : Acc m (P.map f p) gs' rest := by
  intro t ht
  rw [hl] at ht ⊢
  obtain ⟨o, t1, g1, s1, l1, n1⟩ := h t ht
  exact ⟨f o, t1, gives_map g1, hf o s1, l1, n1⟩

theorem acc_node {k : Kind} (h : Acc m p gs rest) : Acc m (nodeP k p) [.node k gs] rest :=
  acc_map h (by simp [lexL, lexemes_node]) (by rintro o rfl; simp [stripL, strip, isBlank])

theorem rej_node {k : Kind} (h : Rej m p ws) : Rej m (nodeP k p) ws := fun t ht => refuses_map (h t ht)

theorem acc_context {s : Msg} (h : Acc m p gs rest) : Acc m (P.context s p) gs rest := by
  intro t ht
  obtain ⟨o, t1, g1, s1, l1, n1⟩ := h t ht
  exact ⟨o, t1, gives_context g1, s1, l1, n1⟩

theorem rej_context {s : Msg} {x : P α} (h : Rej m x ws) : Rej m (P.context s x) ws := fun t ht => refuses_context (h t ht)

theorem acc_optG (h : Acc m p gs rest) : Acc m (optG p) gs rest := by
  intro t ht
  obtain ⟨o, t1, g1, s1, l1, n1⟩ := h t ht
  exact ⟨o, t1, gives_map (gives_opt g1), s1, l1, n1⟩

theorem acc_optG_none (h : Rej m p ws) : Acc m (optG p) [] ws := fun t ht =>
  ⟨[], t, gives_map (gives_opt_none (h t ht)), rfl, ht.lexes, Nat.le_refl _, by simp [lexL]⟩

theorem acc_alt_left {ps : List G} (h : Acc m p gs rest) : Acc m (alt (p :: ps)) gs rest := by
  intro t ht
  obtain ⟨o, t1, g1, s1, l1, n1⟩ := h t ht
  exact ⟨o, t1, gives_alt_left g1, s1, l1, n1⟩

theorem acc_alt_right {ps : List G} (hp : Rej m p (lexL gs ++ rest)) (h : Acc m (alt ps) gs rest) : Acc m (alt (p :: ps)) gs rest := by
  intro t ht
  obtain ⟨o, t1, g1, s1, l1, n1⟩ := h t ht
  exact ⟨o, t1, gives_alt_right (hp t ht) g1, s1, l1, n1⟩

theorem rej_alt_nil {ps : List (P α)} (h : ps = []) : Rej m (alt ps) ws := by subst h; exact fun t ht => refuses_alt_nil

theorem rej_alt {x : P α} {ps : List (P α)} (hp : Rej m x ws) (h : Rej m (alt ps) ws) : Rej m (alt (x :: ps)) ws :=
  fun t ht => refuses_alt (hp t ht) (h t ht)

theorem acc_must (h : Acc m p gs rest) : Acc m (must p) gs rest := by
  intro t ht
  obtain ⟨o, t1, g1, s1, l1, n1⟩ := h t ht
  refine ⟨o, t1, fun pos errs => ?_, s1, l1, n1⟩
  obtain ⟨pos', h⟩ := g1 pos errs
  exact ⟨pos', by simp [must, h]⟩

/-- Repeating the parser accepts the elements. -/
def AccR (dbg m : Bool) (p : G) (gs : List Green) (rest : List Text) : Prop :=
  ∀ t fuel, Lx m t (lexL gs ++ rest) → t.length < fuel → ∃ l t', Gives (repeatF dbg p fuel) t l t' ∧ stripL l.flatten = gs ∧
    Lexes t' rest ∧ t'.length ≤ t.length ∧ (lexL gs ≠ [] → t'.length < t.length)

theorem AccR.weak (h : AccR dbg false p gs rest) : AccR dbg m p gs rest := fun t fuel ht => h t fuel ht.lexes

theorem accR_nil (h : Rej m p ws) : AccR dbg m p [] ws := fun t fuel ht hf => by
  obtain ⟨fuel, rfl⟩ : ∃ k, fuel = k + 1 := ⟨fuel - 1, by omega⟩
  exact ⟨[], t, gives_repeat_done (h t ht), rfl, ht.lexes, Nat.le_refl _, by simp [lexL]⟩

theorem accR_cons (h1 : Acc m p gs (lexL hs ++ rest)) (hne : lexL gs ≠ []) (h2 : AccR dbg false p hs rest) :
    AccR dbg m p (gs ++ hs) rest := by
  intro t fuel ht hf
  obtain ⟨fuel, rfl⟩ : ∃ k, fuel = k + 1 := ⟨fuel - 1, by omega⟩
  rw [lexL_append, List.append_assoc] at ht
  obtain ⟨o1, t1, g1, s1, l1, n1, k1⟩ := h1 t ht
  have hlt := k1 hne
  obtain ⟨o2, t2, g2, s2, l2, n2, k2⟩ := h2 t1 fuel l1 (by omega)
  exact ⟨o1 :: o2, t2, gives_repeat_more g1 hlt g2, by rw [List.flatten_cons, stripL_append, s1, s2], l2, by omega, fun _ => by omega⟩

theorem acc_many (h : AccR dbg m p gs rest) : Acc m (many dbg p) gs rest := by
  intro t ht
  obtain ⟨l, t', g, s, r⟩ := h t (t.length + 1) ht (by omega)
  exact ⟨l.flatten, t', gives_map (fun pos errs => g pos errs), s, r⟩

theorem acc_many1 (h1 : Acc m p gs (lexL hs ++ rest)) (h2 : AccR dbg false p hs rest) : Acc m (many1 dbg p) (gs ++ hs) rest := by
  intro t ht
  rw [lexL_append, List.append_assoc] at ht
  obtain ⟨o1, t1, g1, s1, l1, n1, k1⟩ := h1 t ht
  obtain ⟨o2, t2, g2, s2, l2, n2, k2⟩ := h2 t1 (t1.length + 1) l1 (by omega)
  refine ⟨(o1 :: o2).flatten, t2, gives_map (fun pos errs => ?_), by rw [List.flatten_cons, stripL_append, s1, s2], l2, by omega, fun hne => ?_⟩
  · obtain ⟨pos1, e1⟩ := g1 pos errs
    obtain ⟨pos2, e2⟩ := g2 pos1 errs
    refine ⟨pos2, ?_⟩
    simp only [repeat1, e1, P.map, P.bind, repeat0, e2, P.pure]
  · rw [lexL_append] at hne
    by_cases h : lexL gs = []
    · have := k2 (by simpa [h] using hne)
      omega
    · have := k1 h
      omega

theorem rej_many1 (h : Rej m p ws) : Rej m (many1 dbg p) ws := by
  intro t ht
  refine refuses_map fun pos errs => ?_
  obtain ⟨e, r, pos1, h1⟩ := h t ht pos errs
  exact ⟨e, t, pos, by simp [repeat1, h1, St.resetTo]⟩

/-! ### `retry`, `)` -/

theorem acc_retryRound {al : List Text} {again : List Green → G} (h : Acc true p gs rest) :
    Acc m (retryRound dbg p al [] again) gs rest := by
  refine Acc.weak ?_
  intro t ht
  obtain ⟨tr, t1, g1, b1, r1, n1⟩ := gives_trivias (dbg := dbg) ht
  obtain ⟨o, t2, g2, s2, l2, n2, k2⟩ := h t1 r1
  refine ⟨tr ++ o, t2, fun pos errs => ?_, ?_, l2, by omega, fun hne => ?_⟩
  · obtain ⟨pos1, e1⟩ := g1 pos errs
    obtain ⟨pos2, e2⟩ := g2 pos1 errs
    exact ⟨pos2, by simp [retryRound, e1, e2]⟩
  · rw [stripL_append, stripL_blank b1, s2, List.nil_append]
  · have := k2 hne; omega

theorem acc_retryOnce {al : List Text} (h : Acc true p gs rest) : Acc m (retryOnce dbg p al) gs rest := acc_retryRound h

theorem acc_retry {al : List Text} (h : Acc true p gs rest) : Acc m (retry dbg p al) gs rest := by
  intro t ht
  have h := acc_retryRound (dbg := dbg) (al := al) (again := retryF dbg p al t.length) (m := m) h
  obtain ⟨o, t1, g1, s1, l1, n1⟩ := h t ht
  exact ⟨o, t1, fun pos errs => g1 pos errs, s1, l1, n1⟩

/-- Where `retry` gives up: at a closing parenthesis, at the end, and at a term that is expected later. -/
def Stops (al : List Text) (ws : List Text) : Prop :=
  ws = [] ∨ (∃ r, ws = [')'] :: r) ∨ ∃ w r, ws = ['('] :: w :: r ∧ w ∈ al ∧ IsWord w

end

theorem mem_isLower {c : Char} (h : c ∈ lowers) : isLower c = true := by
  have : ∀ c ∈ lowers, isLower c = true := by decide
  exact this c h

theorem mem_isIdChar {c : Char} (h : c ∈ idChars) : isIdChar c = true := (isIdChar_iff c).mpr h

theorem idChars_wasm {c : Char} (h : c ∈ idChars) : c ∈ idCharsWasm := by
  have : ∀ c ∈ idChars, c ∈ idCharsWasm := by decide
  exact this c h

theorem apart_notId {t : Text} (h : Apart t) : ∀ c x, t = c :: x → isIdChar c = false := by
  intro c x he
  cases hc : isIdChar c with
  | false => rfl
  | true => exact absurd (idChars_wasm ((isIdChar_iff c).mp hc)) (h c x he).1

theorem gives_word {w t : Text} (hw : IsWord w) (ht : Apart t) : Gives word (w ++ t) w t := by
  obtain ⟨h, r, rfl, h1, h2⟩ := hw
  refine gives_take (c := h :: r) (a := r) (gives_bind (gives_oneOf (mem_isLower h1)) ?_)
  exact gives_run0 (fun c hc => mem_isIdChar (h2 c hc)) (apart_notId ht)

theorem refuses_word {t : Text} (h : ∀ c x, t = c :: x → isLower c = false) : Refuses word t :=
  refuses_take (refuses_bind (refuses_oneOf h))

/-- A word at the front of a text. -/
theorem Rdy.at_word {t w : Text} {ws : List Text} (h : Rdy t (w :: ws)) (hw : ∀ c ∈ w, c ∈ idCharsWasm) :
    ∃ t', t = w ++ t' ∧ Apart t' ∧ Lexes t' ws := by
  cases h with
  | lpar h1 h2 => exact absurd (hw '(' (.head _)) not_id_lpar
  | rpar h1 => exact absurd (hw ')' (.head _)) not_id_rpar
  | str s h1 h2 h3 =>
    obtain ⟨b, hb, rfl⟩ := h1
    exact absurd (hw '"' (.head _)) not_id_quote
  | @word w t _ h1 h2 h3 h4 => exact ⟨t, rfl, h3, h4⟩

theorem Rdy.at_lpar {t : Text} {ws : List Text} (h : Rdy t (['('] :: ws)) : ∃ t', t = '(' :: t' ∧ Lexes t' ws := by
  generalize hw : ['('] = w at h
  cases h with
  | lpar h1 h2 => exact ⟨_, rfl, h2⟩
  | rpar h1 => cases hw
  | str s h1 h2 h3 =>
    obtain ⟨b, hb, rfl⟩ := h1
    cases hw
  | word w h1 h2 h3 h4 => subst hw; exact absurd (h2 '(' (.head _)) not_id_lpar

theorem Rdy.at_rpar {t : Text} {ws : List Text} (h : Rdy t ([')'] :: ws)) : ∃ t', t = ')' :: t' ∧ Lexes t' ws := by
  generalize hw : [')'] = w at h
  cases h with
  | lpar h1 h2 => cases hw
  | rpar h1 => exact ⟨_, rfl, h1⟩
  | str s h1 h2 h3 =>
    obtain ⟨b, hb, rfl⟩ := h1
    cases hw
  | word w h1 h2 h3 h4 => subst hw; exact absurd (h2 ')' (.head _)) not_id_rpar

theorem Rdy.at_str {t s : Text} {ws : List Text} (h : Rdy t (s :: ws)) (hs : ClosedString s) :
    ∃ t', t = s ++ t' ∧ Apart t' ∧ Lexes t' ws := by
  obtain ⟨b, hb, rfl⟩ := hs
  generalize hw : '"' :: (b ++ ['"']) = w at h
  cases h with
  | lpar h1 h2 => cases hw
  | rpar h1 => cases hw
  | str s h1 h2 h3 => exact ⟨_, rfl, h2, h3⟩
  | word w h1 h2 h3 h4 => subst hw; exact absurd (h2 '"' (.head _)) not_id_quote

theorem Rdy.at_nil {t : Text} (h : Rdy t []) : t = [] := by cases h; rfl

theorem word_wasm {w : Text} (h : IsWord w) : ∀ c ∈ w, c ∈ idCharsWasm := by
  obtain ⟨h, r, rfl, h1, h2⟩ := h
  intro c hc
  rcases List.mem_cons.mp hc with rfl | hc
  · exact idChars_wasm ((isIdChar_iff c).mp (by simp [isIdChar, isAlnum, mem_isLower h1]))
  · exact idChars_wasm (h2 c hc)

/-- The parser of error tokens fails at these characters without moving. -/
theorem unexpected_stuck {t : Text} (h : t = [] ∨ (∃ r, t = '(' :: r) ∨ ∃ r, t = ')' :: r) (pos : Nat) (errs : List Err) :
    ∃ e, unexpectedToken ⟨t, pos, errs⟩ = .fail e ⟨t, pos, errs⟩ := by
  rcases h with rfl | ⟨r, rfl⟩ | ⟨r, rfl⟩ <;> exact ⟨_, rfl⟩

theorem errorTermInner_refuses {t : Text} {n : Nat} (h : ¬ ['('] <+: t) : Refuses (errorTermInner dbg (n + 1)) t :=
  refuses_bind (refuses_tokP (refuses_lit h))

theorem errorTerm_refuses {al : List Text} {t : Text} {ws : List Text} (h : Rdy t ws) (hs : Stops al ws) :
    Refuses (errorTerm dbg al) t := by
  have base : ¬ ['('] <+: t → Refuses (errorTerm dbg al) t := by
    intro hl
    refine refuses_bind2 (a := ()) (t' := t) (gives_peek (gives_not ?_)) (fun pos errs => errorTermInner_refuses hl pos errs)
    obtain ⟨tr, t1, g1, b1, r1, n1⟩ := gives_trivias (dbg := dbg) h.lexes
    refine refuses_bind2 g1 (refuses_bind (refuses_lit ?_))
    rintro ⟨x, rfl⟩
    rcases hs with rfl | ⟨r, rfl⟩ | ⟨w, r, rfl, _⟩
    · cases r1.at_nil
    · obtain ⟨t', he, _⟩ := r1.at_rpar
      cases he
    · obtain ⟨t', rfl, _⟩ := h.at_lpar
      exact hl ⟨t', rfl⟩
  rcases hs with rfl | ⟨r, rfl⟩ | ⟨w, r, rfl, hw, hiw⟩
  · refine base ?_
    rintro ⟨x, rfl⟩
    cases h.at_nil
  · refine base ?_
    rintro ⟨x, rfl⟩
    obtain ⟨t', he, _⟩ := h.at_rpar
    cases he
  · obtain ⟨tr1, t1, g1, b1, r1, n1⟩ := gives_trivias (dbg := dbg) h.lexes
    obtain ⟨t2, rfl, l2⟩ := r1.at_lpar
    obtain ⟨tr3, t3, g3, b3, r3, n3⟩ := gives_trivias (dbg := dbg) l2
    obtain ⟨t4, rfl, a4, l4⟩ := r3.at_word (word_wasm hiw)
    refine refuses_bind (refuses_peek (refuses_not (a := w) (t' := t4) ?_))
    refine gives_bind g1 (gives_bind (gives_lit1 '(') (gives_bind g3 (gives_verify (gives_word hiw a4) ?_)))
    simp only [List.any_eq_true, beq_iff_eq]
    exact ⟨w, hw, rfl⟩

theorem stops_chars {al : List Text} {t : Text} {ws : List Text} (h : Rdy t ws) (hs : Stops al ws) :
    t = [] ∨ (∃ r, t = '(' :: r) ∨ ∃ r, t = ')' :: r := by
  rcases hs with rfl | ⟨r, rfl⟩ | ⟨w, r, rfl, _⟩
  · exact .inl h.at_nil
  · obtain ⟨t', he, _⟩ := h.at_rpar
    exact .inr (.inr ⟨t', he⟩)
  · obtain ⟨t', he, _⟩ := h.at_lpar
    exact .inr (.inl ⟨t', he⟩)

section
variable {m : Bool} {p q : G} {gs hs : List Green} {rest ws : List Text}

theorem rej_retryRound {al : List Text} {again : List Green → G} (h : Rej true p ws) (hs : Stops al ws) :
    Rej m (retryRound dbg p al [] again) ws := by
  refine Rej.weak ?_
  intro t ht pos errs
  obtain ⟨tr, t1, g1, b1, r1, n1⟩ := gives_trivias (dbg := dbg) ht
  obtain ⟨pos1, e1⟩ := g1 pos errs
  obtain ⟨e, r, pos2, e2⟩ := h t1 r1 pos1 errs
  obtain ⟨e', e3⟩ := unexpected_stuck (stops_chars r1 hs) pos1 errs
  obtain ⟨e'', r', pos3, e4⟩ := errorTerm_refuses (dbg := dbg) r1 hs pos1 errs
  exact ⟨e.stamp ⟨t, pos, errs⟩, t, pos, by simp [retryRound, e1, e2, St.resetTo, e3, e4]⟩

theorem rej_retryOnce {al : List Text} (h : Rej true p ws) (hs : Stops al ws) : Rej m (retryOnce dbg p al) ws := rej_retryRound h hs

theorem rej_retry {al : List Text} (h : Rej true p ws) (hs : Stops al ws) : Rej m (retry dbg p al) ws := by
  intro t ht pos errs
  exact rej_retryRound (dbg := dbg) (again := retryF dbg p al t.length) h hs t ht pos errs

theorem acc_rParen : Acc m (rParen dbg) [.tok .R_PAREN [')']] rest := by
  refine Acc.weak ?_
  intro t ht
  obtain ⟨tr, t1, g1, b1, r1, n1⟩ := gives_trivias (dbg := dbg) ht
  obtain ⟨t2, rfl, l2⟩ := r1.at_rpar
  refine ⟨tr ++ [.tok .R_PAREN [')']], t2, fun pos errs => ?_, by rw [stripL_append, stripL_blank b1]; rfl, l2, ?_, fun _ => ?_⟩
  · obtain ⟨pos1, e1⟩ := g1 pos errs
    obtain ⟨pos2, e2⟩ := gives_context (m := .expChar ')') (gives_lit1 (t := t2) ')') pos1 errs
    exact ⟨pos2, by simp [rParen, rParenF, e1, e2]⟩
  all_goals (simp only [List.length_cons] at n1; omega)

theorem acc_lParen : Acc true lParen [.tok .L_PAREN ['(']] rest := by
  intro t ht
  obtain ⟨t2, rfl, l2⟩ := Rdy.at_lpar ht
  exact ⟨_, t2, gives_context (gives_tokP (gives_lit1 '(')), rfl, l2, by simp, by simp⟩

/-- A token of one word. -/
theorem acc_wordTok {k : Kind} {w : Text} (hk : isBlank (.tok k w) = false) (hw : ∀ c ∈ w, c ∈ idCharsWasm) (hne : w ≠ [])
    (h : ∀ t, Apart t → Lexes t rest → Gives p (w ++ t) [.tok k w] t) : Acc true p [.tok k w] rest := by
  intro t ht
  have e : lexL [.tok k w] = [w] := by simp [lexL, lexemes_tok hk]
  rw [e] at ht ⊢
  obtain ⟨t2, rfl, a2, l2⟩ := Rdy.at_word ht hw
  have hl : 0 < w.length := List.length_pos_iff.mpr hne
  refine ⟨_, t2, h t2 a2 l2, ?_, l2, by simp, fun _ => by simp; omega⟩
  simp [stripL, hk, strip]

end

end Verif
