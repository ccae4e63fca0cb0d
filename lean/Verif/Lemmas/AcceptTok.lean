import Verif.Lemmas.AcceptItems
/-!
Helper lemmas: the parsers of tokens accept the tokens of their shapes.
-/
namespace Verif
open P Spec

section
variable {m : Bool} {p : G} {gs : List Green} {rest : List Text}

/-- Elements of one word. -/
theorem acc_oneWord {w : Text} {out : List Green} (hl : lexL gs = [w]) (hs : stripL out = gs) (hw : ∀ c ∈ w, c ∈ idCharsWasm) (hne : w ≠ [])
    (h : ∀ t, Apart t → Lexes t rest → Gives p (w ++ t) out t) : Acc true p gs rest := by
  intro t ht
  rw [hl] at ht ⊢
  obtain ⟨t2, rfl, a2, l2⟩ := Rdy.at_word ht hw
  have hl : 0 < w.length := List.length_pos_iff.mpr hne
  exact ⟨_, t2, h t2 a2 l2, hs, l2, by simp, fun _ => by simp; omega⟩

theorem word_ne {w : Text} (h : IsWord w) : w ≠ [] := by
  obtain ⟨_, _, rfl, _⟩ := h
  simp

theorem acc_keyword {kw : Text} (hk : reservedWords.contains kw = true) : Acc true (keyword kw) [.tok .KEYWORD kw] rest := by
  have hw := reserved_word (List.contains_iff_mem.mp hk)
  exact acc_wordTok rfl (word_wasm hw) (word_ne hw) fun t a l =>
    gives_context (gives_tokP (gives_verify (gives_word hw a) (by simp)))

theorem acc_ident {w : Text} (h : IsIdent w) : Acc true ident [.tok .IDENT w] rest := by
  refine acc_wordTok rfl (ident_wasm h) ?_ fun t a l => ?_
  · obtain ⟨r, rfl, _⟩ := h; simp
  · obtain ⟨r, rfl, h1, h2⟩ := h
    refine gives_tokP (gives_context (gives_take (c := '$' :: r) (a := r) (gives_bind (gives_lit1 '$') ?_)))
    exact gives_run1 h1 (fun c hc => mem_isIdChar (h2 c hc)) (apart_notId a)

theorem rest_char {t : Text} (hr : rest ≠ []) (a : Apart t) (l : Lexes t rest) : ∃ c cs, t = c :: cs ∧ isIdChar c = false := by
  cases t with
  | nil =>
    generalize ht : ([] : Text) = t at l
    cases l with
    | nil => exact absurd rfl hr
    | block c h =>
      cases h
      simp at ht
    | str s h =>
      obtain ⟨b, _, rfl⟩ := h
      simp at ht
    | word w h =>
      have := List.append_eq_nil_iff.mp ht.symm
      exact absurd this.1 h
    | _ => cases ht
  | cons c cs => exact ⟨c, cs, rfl, apart_notId a c cs rfl⟩

theorem unsigned_ne {w : Text} (h : IsUnsigned w) : w ≠ [] := by
  obtain ⟨c, r, rfl, _⟩ := unsigned_head h
  simp

theorem gives_unsigned {w t : Text} (h : IsUnsigned w) (ht : ∃ c cs, t = c :: cs ∧ isIdChar c = false) : Gives unsignedIntImpl (w ++ t) w t := by
  obtain ⟨c, cs, rfl, hc⟩ := ht
  exact fun pos errs => ⟨_, unsigned_ok pos errs h hc⟩

theorem acc_uint {w : Text} (h : IsUnsigned w) (hr : rest ≠ []) : Acc true unsignedInt [.tok .UNSIGNED_INT w] rest :=
  acc_wordTok rfl (unsigned_wasm h) (unsigned_ne h) fun _ a l => gives_tokP (gives_unsigned h (rest_char hr a l))

theorem int_wasm {w : Text} (h : IsInt w) : ∀ c ∈ w, c ∈ idCharsWasm := by
  rcases h with h | ⟨r, hr, h⟩
  · exact unsigned_wasm h
  · intro c hc
    rcases hr with rfl | rfl
    all_goals
      rcases List.mem_cons.mp hc with rfl | hc
      · decide
      · exact unsigned_wasm h c hc

theorem int_ne {w : Text} (h : IsInt w) : w ≠ [] := by
  rcases h with h | ⟨r, rfl | rfl, h⟩
  · exact unsigned_ne h
  · simp
  · simp

theorem acc_int {w : Text} (h : IsInt w) (hr : rest ≠ []) : Acc true int [.tok .INT w] rest := by
  refine acc_wordTok rfl (int_wasm h) (int_ne h) fun t a l => ?_
  obtain ⟨c, cs, rfl, hc⟩ := rest_char hr a l
  exact fun pos errs => ⟨_, int_ok pos errs h hc⟩

theorem gives_escaped {b r : Text} (hb : StrBody b) : ∀ fuel, (b ++ '"' :: r).length < fuel → Gives (takeEscapedF fuel) (b ++ '"' :: r) () ('"' :: r) := by
  induction hb with
  | nil =>
    intro fuel hf
    obtain ⟨fuel, rfl⟩ : ∃ k, fuel = k + 1 := ⟨fuel - 1, by omega⟩
    exact fun pos errs => ⟨pos, by simp [takeEscapedF, isStrNormal]⟩
  | char c b hc _ ih =>
    intro fuel hf
    obtain ⟨fuel, rfl⟩ : ∃ k, fuel = k + 1 := ⟨fuel - 1, by omega⟩
    have := gives_bind (f := fun _ => takeEscapedF fuel) (gives_any (c := c)) (ih fuel (by simp at hf ⊢; omega))
    intro pos errs
    obtain ⟨pos', h⟩ := this pos errs
    refine ⟨pos', ?_⟩
    simp only [List.mem_cons, List.not_mem_nil, or_false, not_or] at hc
    have hn : isStrNormal c = true := by simp [isStrNormal, hc]
    rw [takeEscapedF]
    simp only [List.cons_append]
    rw [if_pos hn]
    exact h
  | esc c b hc _ ih =>
    intro fuel hf
    obtain ⟨fuel, rfl⟩ : ∃ k, fuel = k + 1 := ⟨fuel - 1, by omega⟩
    have h1 : Gives strEscape (c :: (b ++ '"' :: r)) () (b ++ '"' :: r) := by
      refine gives_bind gives_any ?_
      rw [if_neg (by simpa using hc)]
      exact gives_pure
    have := gives_bind (f := fun _ => P.bind strEscape fun _ => takeEscapedF fuel) (gives_any (c := '\\'))
      (gives_bind h1 (ih fuel (by simp at hf ⊢; omega)))
    intro pos errs
    obtain ⟨pos', h⟩ := this pos errs
    refine ⟨pos', ?_⟩
    rw [takeEscapedF]
    simp only [List.cons_append]
    rw [if_neg (by simp [isStrNormal]), if_pos (by simp)]
    exact h
  | uni x b hh _ ih =>
    intro fuel hf
    obtain ⟨fuel, rfl⟩ : ∃ k, fuel = k + 1 := ⟨fuel - 1, by omega⟩
    have h1 : Gives strEscape ('u' :: '{' :: (x ++ '}' :: (b ++ '"' :: r))) () (b ++ '"' :: r) := by
      refine gives_bind gives_any ?_
      rw [if_pos (by simp)]
      refine gives_bind (gives_lit1 '{') (gives_bind (gives_run0 (w := x) (fun c hc => mem_isHex (hh c hc)) ?_) (gives_void (gives_lit1 '}')))
      intro c x he
      cases he
      decide
    have := gives_bind (f := fun _ => P.bind strEscape fun _ => takeEscapedF fuel) (gives_any (c := '\\'))
      (gives_bind h1 (ih fuel (by simp at hf ⊢; omega)))
    intro pos errs
    obtain ⟨pos', h⟩ := this pos errs
    refine ⟨pos', ?_⟩
    rw [takeEscapedF]
    simp only [List.cons_append, List.append_assoc]
    rw [if_neg (by simp [isStrNormal]), if_pos (by simp)]
    exact h

theorem gives_string {s t : Text} (h : ClosedString s) : Gives string (s ++ t) [.tok .STRING s] t := by
  obtain ⟨b, hb, rfl⟩ := h
  refine gives_tokP (gives_context (gives_take (c := '"' :: (b ++ ['"'])) (a := ['"']) ?_))
  have e : '"' :: (b ++ ['"']) ++ t = '"' :: (b ++ '"' :: t) := by simp
  rw [e]
  refine gives_bind (gives_lit1 '"') (gives_bind (a := ()) (t' := '"' :: t) ?_ (gives_alt_left (gives_lit1 '"')))
  intro pos errs
  exact gives_escaped hb _ (by simp) pos errs

theorem acc_string {s : Text} (h : ClosedString s) : Acc true string [.tok .STRING s] rest := by
  intro t ht
  have e : lexL [.tok .STRING s] = [s] := by simp [lexL, lexemes_tok (k := .STRING) (t := s) rfl]
  rw [e] at ht ⊢
  obtain ⟨t2, rfl, a2, l2⟩ := Rdy.at_str ht h
  have hl : 0 < s.length := by
    obtain ⟨b, _, rfl⟩ := h
    simp
  exact ⟨_, t2, gives_string h, rfl, l2, by simp, fun _ => by simp; omega⟩

theorem acc_instrName {w : Text} (h : InstrWord w) : Acc true instrName [.tok .INSTR_NAME w] rest :=
  acc_wordTok rfl (word_wasm h.1) (word_ne h.1) fun _ a _ => gives_tokP (gives_context (gives_word h.1 a))

theorem acc_heapType {w : Text} (h : w ∈ [t!"func", t!"extern"]) : Acc true heapType [.tok .HEAP_TYPE w] rest := by
  have hw : IsWord w := reserved_word (by
    simp only [List.mem_cons, List.not_mem_nil, or_false] at h
    rcases h with rfl | rfl <;> decide)
  refine acc_wordTok rfl (word_wasm hw) (word_ne hw) fun _ a _ => gives_verifyMap (gives_word hw a) ?_
  simp only [List.mem_cons, List.not_mem_nil, or_false] at h
  rcases h with rfl | rfl <;> rfl

theorem acc_refType {w : Text} (h : w ∈ [t!"funcref", t!"externref"]) : Acc true refType [.tok .REF_TYPE w] rest := by
  have hw : IsWord w := reserved_word (by
    simp only [List.mem_cons, List.not_mem_nil, or_false] at h
    rcases h with rfl | rfl <;> decide)
  refine acc_wordTok rfl (word_wasm hw) (word_ne hw) fun _ a _ => gives_context (gives_verifyMap (gives_word hw a) ?_)
  simp only [List.mem_cons, List.not_mem_nil, or_false] at h
  rcases h with rfl | rfl <;> rfl

theorem acc_share {w : Text} (h : w ∈ [t!"shared", t!"unshared"]) : Acc true share [.tok .SHARE w] rest := by
  have hw : IsWord w := reserved_word (by
    simp only [List.mem_cons, List.not_mem_nil, or_false] at h
    rcases h with rfl | rfl <;> decide)
  refine acc_wordTok rfl (word_wasm hw) (word_ne hw) fun _ a _ => gives_tokP (gives_verify (gives_word hw a) ?_)
  simp only [List.mem_cons, List.not_mem_nil, or_false] at h
  rcases h with rfl | rfl <;> rfl

theorem acc_valType {k : Kind} {w : Text} (h : valTypeTok w = some (.tok k w)) : Acc true valType [.node .VAL_TYPE [.tok k w]] rest := by
  have key : w ∈ reservedWords ∧ isBlank (.tok k w) = false := by
    unfold valTypeTok at h
    simp only [Bool.or_eq_true, beq_iff_eq] at h
    split at h
    · rename_i hw
      cases h
      refine ⟨?_, rfl⟩
      rcases hw with ((rfl | rfl) | rfl) | rfl <;> decide
    · split at h
      · rename_i hw
        cases h
        exact ⟨by rw [hw]; decide, rfl⟩
      · split at h
        · rename_i hw
          cases h
          refine ⟨?_, rfl⟩
          rcases hw with rfl | rfl <;> decide
        · cases h
  have hw := reserved_word key.1
  refine acc_oneWord (w := w) (out := [.node .VAL_TYPE [.tok k w]]) ?_ ?_ (word_wasm hw) (word_ne hw) fun _ a _ =>
    gives_map (gives_context (gives_verifyMap (gives_word hw a) h))
  · simp [lexL, lexemes_node, lexemes_tok key.2]
  · simp [stripL, strip, key.2, show isBlank (.node .VAL_TYPE [.tok k w]) = false from rfl]

theorem memArg_wasm {w : Text} (h : ∃ r, (w = t!"offset=" ++ r ∨ w = t!"align=" ++ r) ∧ IsUnsigned r) : ∀ c ∈ w, c ∈ idCharsWasm := by
  obtain ⟨r, hr, hu⟩ := h
  have h1 : ∀ c ∈ t!"offset=", c ∈ idCharsWasm := by decide
  have h2 : ∀ c ∈ t!"align=", c ∈ idCharsWasm := by decide
  intro c hc
  rcases hr with rfl | rfl
  · rcases List.mem_append.mp hc with h | h
    · exact h1 c h
    · exact unsigned_wasm hu c h
  · rcases List.mem_append.mp hc with h | h
    · exact h2 c h
    · exact unsigned_wasm hu c h

theorem acc_memArg {w : Text} (h : ∃ r, (w = t!"offset=" ++ r ∨ w = t!"align=" ++ r) ∧ IsUnsigned r) (hr : rest ≠ []) :
    Acc true memArg [.tok .MEM_ARG w] rest := by
  refine acc_wordTok rfl (memArg_wasm h) ?_ fun t a l => ?_
  · obtain ⟨r, rfl | rfl, _⟩ := h <;> simp
  · obtain ⟨r, rfl | rfl, hu⟩ := h
    · refine gives_tokP (gives_take (a := r) ?_)
      rw [show t!"offset=" ++ r ++ t = t!"offset" ++ ('=' :: (r ++ t)) by simp]
      exact gives_bind (gives_alt_left (gives_lit _)) (gives_bind (gives_lit1 '=') (gives_unsigned hu (rest_char hr a l)))
    · refine gives_tokP (gives_take (a := r) ?_)
      rw [show t!"align=" ++ r ++ t = t!"align" ++ ('=' :: (r ++ t)) by simp]
      refine gives_bind (gives_alt_right (refuses_lit ?_) (gives_alt_left (gives_lit _))) (gives_bind (gives_lit1 '=') (gives_unsigned hu (rest_char hr a l)))
      rintro ⟨x, hx⟩
      simp at hx

/-! ### Numbers -/

theorem hex_id {c : Char} (h : c ∈ hexDigits) : isIdChar c = true := by
  have : ∀ c ∈ hexDigits, isIdChar c = true := by decide
  exact this c h

theorem digit_id {c : Char} (h : c ∈ digits) : isIdChar c = true := by
  have : ∀ c ∈ digits, isIdChar c = true := by decide
  exact this c h

theorem unsigned_id {w : Text} (h : IsUnsigned w) : ∀ c ∈ w, isIdChar c = true := by
  intro c hc
  rcases h with ⟨h, r, rfl, h1, h2, _⟩ | ⟨_, rfl, h, r, rfl, h1, h2, _⟩
  · rcases List.mem_cons.mp hc with rfl | hc
    · exact digit_id h1
    · rcases h2 c hc with h | rfl
      · exact digit_id h
      · decide
  · simp only [List.mem_cons] at hc
    rcases hc with rfl | rfl | rfl | hc
    · decide
    · decide
    · exact hex_id h1
    · rcases h2 c hc with h | rfl
      · exact hex_id h
      · decide

theorem int_id {w : Text} (h : IsInt w) : ∀ c ∈ w, isIdChar c = true := by
  rcases h with h | ⟨r, hr, h⟩
  · exact unsigned_id h
  · intro c hc
    rcases hr with rfl | rfl
    all_goals
      rcases List.mem_cons.mp hc with rfl | hc
      · decide
      · exact unsigned_id h c hc

theorem run_id {ds : List Char} {w : Text} (hd : ∀ c ∈ ds, isIdChar c = true) (h : IsRun ds w) : ∀ c ∈ w, isIdChar c = true := by
  obtain ⟨h, r, rfl, h1, h2⟩ := h
  intro c hc
  rcases List.mem_cons.mp hc with rfl | hc
  · exact hd _ h1
  · rcases h2 c hc with h | rfl
    · exact hd _ h
    · decide

theorem sign_id {w : Text} (h : IsSign w) : ∀ c ∈ w, isIdChar c = true := by
  rcases h with rfl | rfl | rfl <;> decide

theorem floatNum_id {ds e : List Char} {w : Text} (hd : ∀ c ∈ ds, isIdChar c = true) (he : ∀ c ∈ e, isIdChar c = true)
    (h : IsFloatNum ds e w) : ∀ c ∈ w, isIdChar c = true := by
  obtain ⟨i, f, x, rfl, hi, hf, hx⟩ := h
  intro c hc
  simp only [List.mem_append] at hc
  rcases hc with (hc | hc) | hc
  · exact run_id hd hi c hc
  · rcases hf with rfl | ⟨r, rfl, hr⟩
    · cases hc
    · rcases List.mem_cons.mp hc with rfl | hc
      · decide
      · rcases hr with rfl | hr
        · cases hc
        · exact run_id hd hr c hc
  · rcases hx with rfl | ⟨y, g, r, rfl, hy, hg, hr⟩
    · cases hc
    · rcases List.mem_cons.mp hc with rfl | hc
      · exact he _ hy
      · rcases List.mem_append.mp hc with hc | hc
        · exact sign_id hg c hc
        · exact run_id (fun _ => digit_id) hr c hc

theorem float_id {w : Text} (h : IsFloat w) : ∀ c ∈ w, isIdChar c = true := by
  obtain ⟨⟨g, m, rfl, hg, hm⟩, _⟩ := h
  intro c hc
  rcases List.mem_append.mp hc with hc | hc
  · exact sign_id hg c hc
  · have h1 : ∀ c ∈ t!"inf", isIdChar c = true := by decide
    have h2 : ∀ c ∈ t!"nan", isIdChar c = true := by decide
    have h3 : ∀ c ∈ t!"nan:0x", isIdChar c = true := by decide
    rcases hm with rfl | rfl | ⟨r, rfl, hr⟩ | hm | ⟨r, rfl, hr⟩
    · exact h1 c hc
    · exact h2 c hc
    · rcases List.mem_append.mp hc with hc | hc
      · exact h3 c hc
      · exact run_id (fun _ => hex_id) hr c hc
    · exact floatNum_id (fun _ => digit_id) (by decide) hm c hc
    · simp only [List.mem_cons] at hc
      rcases hc with rfl | rfl | hc
      · decide
      · decide
      · exact floatNum_id (fun _ => hex_id) (by decide) hr c hc

theorem intImpl_next {s s' : St} {a : Text} (h : intImpl s = .ok a s') : ∃ c cs, s'.rest = c :: cs ∧ isIdChar c = false := by
  unfold intImpl P.take at h
  split at h <;> try (cases h; done)
  rename_i u s2 hb'
  cases h
  obtain ⟨_, s3, _, h1⟩ := pbind_ok hb'
  obtain ⟨_, s4, _, h2⟩ := pbind_ok h1
  unfold P.peek at h2
  split at h2 <;> try (cases h2; done)
  rename_i ch s5 h3
  cases h2
  unfold P.noneOf P.verify P.verifyMap P.any at h3
  cases hr : s4.rest with
  | nil => rw [hr] at h3; cases h3
  | cons c cs =>
    refine ⟨c, cs, hr, ?_⟩
    rw [hr] at h3
    simp only at h3
    cases hc : isIdChar c with
    | false => rfl
    | true => simp [hc] at h3

/-- The maximal word at the front of a text. -/
theorem word_unique {w t c : Text} {d : Char} {cs : Text} (hw : ∀ x ∈ w, isIdChar x = true) (ht : Apart t)
    (hc : ∀ x ∈ c, isIdChar x = true) (hd : isIdChar d = false) (he : w ++ t = c ++ d :: cs) : c = w := by
  have h1 := (takeWhile_stop hw (apart_notId ht)).1
  have h2 := (takeWhile_stop (r := d :: cs) hc (by rintro c x he; cases he; exact hd)).1
  rw [he] at h1
  exact h2.symm.trans h1

theorem refuses_lex {p : P Text} {Q : Text → Prop} (hl : ∀ n, Lex false n (fun a c => a = c ∧ Q c) p)
    (hn : ∀ {s s' : St} {a : Text}, p s = .ok a s' → ∃ c cs, s'.rest = c :: cs ∧ isIdChar c = false)
    (hQ : ∀ c, Q c → ∀ x ∈ c, isIdChar x = true) {w t : Text} (hw : ∀ x ∈ w, isIdChar x = true) (ht : Apart t) (h : ¬ Q w) :
    Refuses p (w ++ t) := by
  intro pos errs
  have hl := hl _ ⟨w ++ t, pos, errs⟩ (Nat.le_refl _)
  cases hr : p ⟨w ++ t, pos, errs⟩ with
  | ok a s' =>
    rw [hr] at hl
    obtain ⟨c, ha, rfl, hq⟩ := hl
    obtain ⟨d, cs, he, hd⟩ := hn hr
    have := ha.rest
    rw [he] at this
    cases word_unique hw ht (hQ _ hq) hd this
    exact absurd hq h
  | fail e s' =>
    rw [hr] at hl
    obtain ⟨c, ha, _⟩ := hl
    cases s' with
    | mk r pos' errs' =>
      cases (show errs' = errs from ha.errs)
      exact ⟨e, r, pos', rfl⟩
  | panic => rw [hr] at hl; cases hl.1
  | oof => rw [hr] at hl; cases hl

theorem refuses_int {w t : Text} (hw : ∀ x ∈ w, isIdChar x = true) (ht : Apart t) (h : ¬ IsInt w) : Refuses int (w ++ t) :=
  refuses_tokP (refuses_lex (Q := IsInt) (fun _ => lex_intImpl.mono fun _ _ h => ⟨h.1, h.2.1⟩) intImpl_next (fun _ => int_id) hw ht h)

theorem refuses_float {w t : Text} (hw : ∀ x ∈ w, isIdChar x = true) (ht : Apart t) (h : ¬ IsFloat w) : Refuses float (w ++ t) :=
  refuses_tokP (refuses_lex (Q := IsFloat) (fun _ => lex_floatImpl) floatImpl_next (fun _ => float_id) hw ht h)

theorem underscores_ok {hl : Bool} : ∀ {t : Text}, (∀ a b, t = a ++ '_' :: b → ∃ d r, b = d :: r ∧ (if hl then isHex d else isDigit d) = true) →
    floatUnderscoresOk hl t = true := by
  intro t
  fun_induction floatUnderscoresOk hl t with
  | case1 => intro _; rfl
  | case2 c hc =>
    intro h
    simp only [beq_iff_eq] at hc; subst hc
    obtain ⟨d, r, hd, _⟩ := h [] [] rfl
    cases hd
  | case3 c hc d ds ih =>
    intro h
    simp only [beq_iff_eq] at hc; subst hc
    obtain ⟨d', r, hd, hx⟩ := h [] (d :: ds) rfl
    cases hd
    rw [Bool.and_eq_true]
    refine ⟨hx, ih fun a b he => h ('_' :: d :: a) b (by simp [he])⟩
  | case4 c cs hc ih =>
    intro h
    exact ih fun a b he => h (c :: a) b (by simp [he])

/-- A run of digits is read to its end. -/
theorem gives_digits {f : Char → Bool} {ds : List Char} (hf : ∀ c ∈ ds, f c = true) {w t : Text} (h : IsRun ds w)
    (ht : ∀ c x, t = c :: x → (f c || c == '_') = false) :
    Gives (P.take (P.bind (P.oneOf f) fun _ => P.takeWhile0 fun c => f c || c == '_')) (w ++ t) w t := by
  obtain ⟨h, r, rfl, h1, h2⟩ := h
  refine gives_take (c := h :: r) (a := r) (gives_bind (gives_oneOf (hf _ h1)) (gives_run0 (fun c hc => ?_) ht))
  rcases h2 c hc with h | rfl
  · simp [hf _ h]
  · simp

theorem gives_sign {g t : Text} (hg : IsSign g) (ht : ∀ c x, t = c :: x → (c == '+' || c == '-') = false) : Gives optSign (g ++ t) () t := by
  rcases hg with rfl | rfl | rfl
  · exact gives_void (gives_opt_none (refuses_oneOf ht))
  · exact gives_void (gives_opt (gives_oneOf rfl))
  · exact gives_void (gives_opt (gives_oneOf rfl))

theorem run_head {ds : List Char} {w : Text} (h : IsRun ds w) (t : Text) : ∀ c x, w ++ t = c :: x → c ∈ ds := by
  obtain ⟨h, r, rfl, h1, _⟩ := h
  intro c x he
  cases he
  exact h1

/-- The fraction and the exponent of a number. -/
theorem gives_floatTail {f : Char → Bool} {ds e : List Char} {fe : Char → Bool} (hf : ∀ c ∈ ds, f c = true) (hfe : ∀ c ∈ e, fe c = true)
    (hdot : f '.' = false) (hE : ∀ c ∈ e, (f c || c == '_') = false ∧ c ≠ '.') {fr ex t : Text}
    (hfr : Opt (fun f => ∃ r, f = '.' :: r ∧ Opt (IsRun ds) r) fr)
    (hex : Opt (fun x => ∃ c g r, x = c :: (g ++ r) ∧ c ∈ e ∧ IsSign g ∧ IsRun digits r) ex)
    (ht : ∀ c x, t = c :: x → isIdChar c = false) (hid : ∀ c, (f c || c == '_') = true → isIdChar c = true)
    (hide : ∀ c, fe c = true → isIdChar c = true) :
    Gives (P.bind (opt (P.bind (lit ['.']) fun _ => opt (P.take (P.bind (P.oneOf f) fun _ => P.takeWhile0 fun c => f c || c == '_')))) fun _ =>
        P.void (opt (P.bind (P.oneOf fe) fun _ => P.bind optSign fun _ => unsignedDec))) (fr ++ (ex ++ t)) () t ∧
      (∀ c x, fr ++ (ex ++ t) = c :: x → (f c || c == '_') = false) := by
  have hstop : ∀ c x, t = c :: x → (f c || c == '_') = false := by
    intro c x he
    cases hc : (f c || c == '_') with
    | false => rfl
    | true => have := hid c hc; rw [ht c x he] at this; cases this
  have hexstop : ∀ c x, ex ++ t = c :: x → (f c || c == '_') = false ∧ c ≠ '.' := by
    intro c x he
    rcases hex with rfl | ⟨y, g, r, rfl, hy, _⟩
    · refine ⟨hstop c x he, ?_⟩
      rintro rfl
      exact absurd (ht _ x he) (by decide)
    · cases he
      exact hE _ hy
  have h2 : Gives (P.void (opt (P.bind (P.oneOf fe) fun _ => P.bind optSign fun _ => unsignedDec))) (ex ++ t) () t := by
    rcases hex with rfl | ⟨y, g, r, rfl, hy, hg, hr⟩
    · refine gives_void (gives_opt_none (refuses_bind (refuses_oneOf fun c x he => ?_)))
      cases hc : fe c with
      | false => rfl
      | true => have := hide c hc; rw [ht c x he] at this; cases this
    · refine gives_void (gives_opt (a := r) ?_)
      rw [List.cons_append, List.append_assoc]
      refine gives_bind (gives_oneOf (hfe _ hy)) (gives_bind (gives_sign hg ?_) (gives_digits (fun _ => mem_isDigit) hr ?_))
      · intro c x he
        have := run_head hr t c x he
        have key : ∀ c ∈ digits, (c == '+' || c == '-') = false := by decide
        exact key c this
      · intro c x he
        have := ht c x he
        exact (notId_notDigit this).1
  refine ⟨?_, ?_⟩
  · rcases hfr with rfl | ⟨r, rfl, hr⟩
    · refine gives_bind (gives_opt_none (refuses_bind (refuses_lit ?_))) h2
      rintro ⟨x, hx⟩
      exact (hexstop '.' x hx.symm).2 rfl
    · rcases hr with rfl | hr
      · refine gives_bind (gives_opt (gives_bind (gives_lit1 '.') (gives_opt_none (refuses_take (refuses_bind (refuses_oneOf fun c x he => ?_)))))) h2
        have := (hexstop c x he).1
        rw [Bool.or_eq_false_iff] at this
        exact this.1
      · rw [List.cons_append]
        exact gives_bind (gives_opt (gives_bind (gives_lit1 '.') (gives_opt (gives_digits hf hr fun c x he => (hexstop c x he).1)))) h2
  · intro c x he
    rcases hfr with rfl | ⟨r, rfl, hr⟩
    · exact (hexstop c x he).1
    · cases he
      rw [hdot]; rfl

theorem gives_float {w t : Text} (h : IsFloat w) (hs : Separated w) (ht : ∃ c cs, t = c :: cs ∧ isIdChar c = false) : Gives floatImpl (w ++ t) w t := by
  obtain ⟨d, cs, rfl, hd⟩ := ht
  have hstop : ∀ c x, d :: cs = c :: x → isIdChar c = false := by rintro c x ⟨⟩; exact hd
  have hx : ∀ c ∈ hexDigits, isHex c = true := fun _ => mem_isHex
  have hhid : ∀ c, (isHex c || c == '_') = true → isIdChar c = true := by
    intro c hc
    cases hi : isIdChar c with
    | true => rfl
    | false => rw [(notId_notDigit hi).2] at hc; cases hc
  have hdid : ∀ c, (isDigit c || c == '_') = true → isIdChar c = true := by
    intro c hc
    cases hi : isIdChar c with
    | true => rfl
    | false => rw [(notId_notDigit hi).1] at hc; cases hc
  obtain ⟨⟨g, m, rfl, hg, hm⟩, _⟩ := h
  refine gives_verify (gives_take (a := d) ?_) ?_
  · rw [List.append_assoc]
    have hsign : ∀ c x, m ++ d :: cs = c :: x → (c == '+' || c == '-') = false := by
      intro c x he
      have key : ∀ c ∈ digits, (c == '+' || c == '-') = false := by decide
      rcases hm with rfl | rfl | ⟨r, rfl, hr⟩ | ⟨i, f, x', rfl, hi, _⟩ | ⟨r, rfl, hr⟩
      · cases he; decide
      · cases he; decide
      · cases he; decide
      · rw [List.append_assoc, List.append_assoc] at he
        exact key c (run_head hi _ c x he)
      · cases he; decide
    refine gives_bind (gives_sign hg hsign) (gives_bind (a := ()) (t' := d :: cs) ?_ (gives_peek (gives_noneOf hd)))
    have no0x : ∀ {a : Char} {x : Text}, a ≠ '0' → Refuses (lit ['0', 'x']) (a :: x) := by
      intro a x ha
      refine refuses_lit ?_
      rintro ⟨y, hy⟩
      cases hy
      exact ha rfl
    have nodec : ∀ {a : Char} {x : Text}, isDigit a = false → Refuses unsignedDec (a :: x) := fun h =>
      refuses_take (refuses_bind (refuses_oneOf (by rintro c r ⟨⟩; exact h)))
    rcases hm with rfl | rfl | ⟨r, rfl, hr⟩ | ⟨i, f, x, rfl, hi, hf, hx'⟩ | ⟨r, rfl, i, f, x, rfl, hi, hf, hx'⟩
    · exact gives_alt_right (refuses_bind (no0x (by decide))) (gives_alt_right (refuses_bind (nodec (by decide)))
        (gives_alt_left (gives_void (gives_lit t!"inf"))))
    · refine gives_alt_right (refuses_bind (no0x (by decide))) (gives_alt_right (refuses_bind (nodec (by decide)))
        (gives_alt_right (refuses_void (refuses_lit ?_)) (gives_alt_left (gives_bind (gives_lit t!"nan")
          (gives_void (gives_opt_none (refuses_bind (refuses_lit ?_))))))))
      · rintro ⟨y, hy⟩; simp at hy
      · rintro ⟨y, hy⟩
        simp only [List.cons_append, List.nil_append, List.cons.injEq] at hy
        rw [← hy.1] at hd
        exact absurd hd (by decide)
    · refine gives_alt_right (refuses_bind (no0x (by decide))) (gives_alt_right (refuses_bind (nodec (by decide)))
        (gives_alt_right (refuses_void (refuses_lit ?_)) (gives_alt_left ?_)))
      · rintro ⟨y, hy⟩; simp at hy
      · rw [show t!"nan:0x" ++ r ++ d :: cs = t!"nan" ++ (t!":0x" ++ (r ++ d :: cs)) by simp]
        refine gives_bind (gives_lit t!"nan") (gives_void (gives_opt (gives_bind (gives_lit t!":0x") (gives_digits hx hr fun c x he => ?_))))
        exact (notId_notDigit (hstop c x he)).2
    · obtain ⟨h1, h2⟩ := gives_floatTail (fe := fun c => c == 'e' || c == 'E') (fun _ => mem_isDigit) (by decide) (by decide) (by decide) hf hx' hstop hdid (by
        intro c hc
        simp only [Bool.or_eq_true, beq_iff_eq] at hc
        rcases hc with rfl | rfl <;> decide)
      rw [List.append_assoc, List.append_assoc]
      refine gives_alt_right (refuses_bind (refuses_lit ?_)) (gives_alt_left (gives_bind (gives_digits (fun _ => mem_isDigit) hi h2) h1))
      rintro ⟨y, hy⟩
      obtain ⟨z, r, rfl, hz1, hz2⟩ := hi
      simp only [List.cons_append, List.nil_append, List.cons.injEq] at hy
      cases r with
      | nil =>
        have hy' := hy.2
        rw [List.nil_append] at hy'
        rcases hf with rfl | ⟨r, rfl, _⟩
        · rcases hx' with rfl | ⟨c, g, r, rfl, hc, _⟩
          · simp only [List.nil_append, List.cons.injEq] at hy'
            rw [← hy'.1] at hd
            exact absurd hd (by decide)
          · simp only [List.nil_append, List.cons_append, List.cons.injEq] at hy'
            rw [← hy'.1] at hc
            exact absurd hc (by decide)
        · cases hy'
      | cons a r =>
        simp only [List.cons_append, List.cons.injEq] at hy
        have := hz2 a (.head _)
        rw [← hy.2.1] at this
        exact absurd this (by decide)
    · obtain ⟨h1, h2⟩ := gives_floatTail (fe := fun c => c == 'p' || c == 'P') hx (by decide) (by decide) (by decide) hf hx' hstop hhid (by
        intro c hc
        simp only [Bool.or_eq_true, beq_iff_eq] at hc
        rcases hc with rfl | rfl <;> decide)
      rw [List.cons_append, List.cons_append, List.append_assoc, List.append_assoc]
      exact gives_alt_left (gives_bind (gives_lit ['0', 'x']) (gives_bind (gives_digits hx hi h2) h1))
  · refine underscores_ok fun a b he => ?_
    obtain ⟨c, r, hb, hc⟩ := hs a b he
    refine ⟨c, r, hb, ?_⟩
    rcases hc with hc | ⟨hp, hc⟩
    · split
      · exact isDigit_isHex (mem_isDigit hc)
      · exact mem_isDigit hc
    · rw [List.isPrefixOf_iff_prefix.mpr hp, if_pos rfl]
      exact mem_isHex hc

theorem float_wasm {w : Text} (h : IsFloat w) : ∀ c ∈ w, c ∈ idCharsWasm := fun c hc => idChars_wasm ((isIdChar_iff c).mp (float_id h c hc))

theorem acc_float {w : Text} (h : IsFloat w) (hs : Separated w) (hr : rest ≠ []) : Acc true float [.tok .FLOAT w] rest :=
  acc_wordTok rfl (float_wasm h) (IsFloat.ne_nil h) fun _ a l => gives_tokP (gives_float h hs (rest_char hr a l))

end

end Verif
