import Verif.Lemmas.TokenLex2
/-!
Helper lemmas: an integer followed by a character that is not part of a word is read by `int`, so `float` after it
never yields the text of an integer.
-/
namespace Verif
open P Spec

theorem pbind_ok {p : P α} {f : α → P β} {s s' : St} {b : β} (h : P.bind p f s = .ok b s') :
    ∃ a s1, p s = .ok a s1 ∧ f a s1 = .ok b s' := by
  unfold P.bind at h
  cases hp : p s with
  | ok a s1 => rw [hp] at h; exact ⟨a, s1, rfl, h⟩
  | fail => rw [hp] at h; cases h
  | panic => rw [hp] at h; cases h
  | oof => rw [hp] at h; cases h

/-- After a number comes a character that is not part of a word. -/
theorem floatImpl_next {s s' : St} {a : Text} (h : floatImpl s = .ok a s') : ∃ c cs, s'.rest = c :: cs ∧ isIdChar c = false := by
  unfold floatImpl P.verify P.verifyMap at h
  split at h <;> try (cases h; done)
  rename_i b s1 hb
  split at h <;> try (cases h; done)
  cases h
  unfold P.take at hb
  split at hb <;> try (cases hb; done)
  rename_i u s2 hb'
  cases hb
  obtain ⟨_, s3, _, h1⟩ := pbind_ok hb'
  obtain ⟨_, s4, _, h2⟩ := pbind_ok h1
  unfold P.peek at h2
  split at h2 <;> try (cases h2; done)
  rename_i ch s5 h3
  cases h2
  unfold P.noneOf P.verify P.verifyMap P.any at h3
  cases hr : s4.rest with
  | nil => rw [hr] at h3; cases h3
  | cons c cs =>
    refine ⟨c, cs, hr, ?_⟩
    rw [hr] at h3
    simp only at h3
    cases hc : isIdChar c with
    | false => rfl
    | true => simp [hc] at h3

theorem mem_isDigit {c : Char} (h : c ∈ digits) : isDigit c = true := by
  revert h; simp only [digits, List.mem_cons, List.not_mem_nil, or_false]
  rintro (rfl|rfl|rfl|rfl|rfl|rfl|rfl|rfl|rfl|rfl) <;> decide

/-- Reading a run of digits. -/
theorem run_ok {f : Char → Bool} {h : Char} {r cs : Text} {c : Char} (pos : Nat) (errs : List Err) (hh : f h = true)
    (hr : ∀ x ∈ r, (f x || x == '_') = true) (hc : (f c || c == '_') = false) :
    P.take (P.bind (P.oneOf f) fun _ => P.takeWhile0 fun c => f c || c == '_') ⟨h :: (r ++ c :: cs), pos, errs⟩ =
      .ok (h :: r) ⟨c :: cs, pos + bytes (h :: r), errs⟩ := by
  have h2 := takeWhile_append_stop hr hc (r := cs)
  simp only [P.take, P.bind, P.oneOf, P.verify, P.verifyMap, P.any, hh, if_true, P.takeWhile0, h2]
  simp [bytes]
  refine ⟨?_, by omega⟩
  rw [show r.length + (cs.length + 1) - cs.length = r.length + 1 by omega]
  simp

theorem notId_notDigit {c : Char} (h : isIdChar c = false) : (isDigit c || c == '_') = false ∧ (isHex c || c == '_') = false := by
  have h1 : isHex c = false := by
    cases hx : isHex c with
    | false => rfl
    | true => rw [isHex_isIdChar hx] at h; cases h
  have h2 : isDigit c = false := by
    cases hx : isDigit c with
    | false => rfl
    | true => rw [isDigit_isHex hx] at h1; cases h1
  have h3 : (c == '_') = false := by
    cases hx : c == '_' with
    | false => rfl
    | true => rw [beq_iff_eq.mp hx] at h; revert h; decide
  simp [h1, h2, h3]

/-- Reading an unsigned integer. -/
theorem unsigned_ok {u cs : Text} {c : Char} (pos : Nat) (errs : List Err) (hu : IsUnsigned u) (hc : isIdChar c = false) :
    unsignedIntImpl ⟨u ++ c :: cs, pos, errs⟩ = .ok u ⟨c :: cs, pos + bytes u, errs⟩ := by
  obtain ⟨hd, hx⟩ := notId_notDigit hc
  rcases hu with ⟨h, r, rfl, h1, h2, h3⟩ | ⟨_, rfl, h, r, rfl, h1, h2, h3⟩
  · have hr := run_ok (f := isDigit) (cs := cs) pos errs (mem_isDigit h1) (r := r) (by
      intro x hx
      rcases h2 x hx with h | h
      · simp [mem_isDigit h]
      · simp [h]) hd
    have hl : lit ['0', 'x'] ⟨h :: r ++ c :: cs, pos, errs⟩ = .fail .new ⟨h :: r ++ c :: cs, pos, errs⟩ := by
      apply lit_fail
      rintro ⟨w, hw⟩
      simp only [List.cons_append, List.nil_append, List.cons.injEq] at hw
      obtain ⟨_, hw⟩ := hw
      cases r with
      | nil =>
        simp only [List.nil_append, List.cons.injEq] at hw
        rw [← hw.1] at hc; revert hc; decide
      | cons x r =>
        simp only [List.cons_append, List.cons.injEq] at hw
        have := h2 x (by simp)
        rw [← hw.1] at this
        revert this; decide
    unfold unsignedIntImpl P.verify P.verifyMap P.take P.bind P.opt
    rw [hl]
    have hr : unsignedDec ⟨h :: r ++ c :: cs, pos, errs⟩ = _ := hr
    simp only [St.resetTo, hr]
    have e : List.take ((h :: r ++ c :: cs).length - (c :: cs).length) (h :: r ++ c :: cs) = h :: r := by
      rw [show (h :: r ++ c :: cs).length - (c :: cs).length = (h :: r).length by simp; omega]
      exact List.take_left' rfl
    rw [e, if_pos (by simpa using h3)]
  · have hr := run_ok (f := isHex) (cs := cs) (pos + bytes ['0', 'x']) errs (mem_isHex h1) (r := r) (by
      intro x hx
      rcases h2 x hx with h | h
      · simp [mem_isHex h]
      · simp [h]) hx
    have hl := lit_ok (t := ['0', 'x']) (s := ⟨'0' :: 'x' :: (h :: r) ++ c :: cs, pos, errs⟩) ⟨_, rfl⟩
    unfold unsignedIntImpl P.verify P.verifyMap P.take P.bind P.opt
    rw [hl]
    have hr : unsignedHex ⟨h :: (r ++ c :: cs), pos + bytes ['0', 'x'], errs⟩ = _ := hr
    simp only [List.length_cons, List.length_nil, List.cons_append, List.drop_succ_cons, List.drop_zero, hr]
    have e : List.take ((r ++ c :: cs).length + 1 + 1 + 1 - (cs.length + 1)) ('0' :: 'x' :: h :: (r ++ c :: cs)) = '0' :: 'x' :: h :: r := by
      rw [show (r ++ c :: cs).length + 1 + 1 + 1 - (cs.length + 1) = ('0' :: 'x' :: h :: r).length by simp; omega]
      exact List.take_left' (l₁ := '0' :: 'x' :: h :: r) rfl
    rw [e, if_pos (by simpa using h3)]
    simp [bytes]; omega

/-- Reading an integer. -/
theorem int_ok {t cs : Text} {c : Char} (pos : Nat) (errs : List Err) (ht : IsInt t) (hc : isIdChar c = false) :
    int ⟨t ++ c :: cs, pos, errs⟩ = .ok [.tok .INT t] ⟨c :: cs, pos + bytes t, errs⟩ := by
  have hp : ∀ p, peek (noneOf isIdChar) ⟨c :: cs, p, errs⟩ = .ok c ⟨c :: cs, p, errs⟩ := by
    intro p
    simp [P.peek, P.noneOf, P.verify, P.verifyMap, P.any, hc, St.resetTo]
  have key : intImpl ⟨t ++ c :: cs, pos, errs⟩ = .ok t ⟨c :: cs, pos + bytes t, errs⟩ := by
    have e : ∀ a : Text, List.take ((a ++ c :: cs).length - (c :: cs).length) (a ++ c :: cs) = a := by intro a; simp
    rcases ht with hu | ⟨r, hr, hu⟩
    · have hs : optSign ⟨t ++ c :: cs, pos, errs⟩ = .ok () ⟨t ++ c :: cs, pos, errs⟩ := by
        have : ∃ h r, t = h :: r ∧ (h == '+' || h == '-') = false := by
          rcases hu with ⟨h, r, rfl, h1, _⟩ | ⟨_, rfl, _⟩
          · refine ⟨h, r, rfl, ?_⟩
            revert h1; simp only [digits, List.mem_cons, List.not_mem_nil, or_false]
            rintro (rfl|rfl|rfl|rfl|rfl|rfl|rfl|rfl|rfl|rfl) <;> decide
          · exact ⟨_, _, rfl, by decide⟩
        obtain ⟨h, r, rfl, hh⟩ := this
        simp only [optSign, P.void, P.map, P.bind, P.opt, P.oneOf, P.verify, P.verifyMap, P.any, List.cons_append, hh,
          Bool.false_eq_true, if_false, St.resetTo, P.pure]
      simp only [intImpl, P.take, P.bind, hs, unsigned_ok pos errs hu hc, hp, e]
    · have hs : optSign ⟨t ++ c :: cs, pos, errs⟩ = .ok () ⟨r ++ c :: cs, pos + 1, errs⟩ := by
        rcases hr with rfl | rfl <;>
          simp [optSign, P.void, P.map, P.bind, P.opt, P.oneOf, P.verify, P.verifyMap, P.any, P.pure] <;> rfl
      simp only [intImpl, P.take, P.bind, hs, unsigned_ok (pos + 1) errs hu hc, hp, e]
      have : bytes t = 1 + bytes r := by rcases hr with rfl | rfl <;> rfl
      rw [this]; simp; omega
  simp only [int, tokP, P.map, P.bind, P.pure, key]

/-- `int` and then `float`: a float is not the text of an integer. -/
theorem lexTok_number {dbg : Bool} {n : Nat} : LexTok dbg n (alt [int, float]) := by
  intro s hs
  have hi := lexTok_int (dbg := dbg) (n := n) s hs
  show LexOut dbg _ s (alt2 int float s)
  unfold P.alt2
  cases hio : int s with
  | ok a s' => rw [hio] at hi; exact hi
  | panic => rw [hio] at hi; exact hi
  | oof => rw [hio] at hi; exact hi
  | fail e s' =>
    rw [hio] at hi
    obtain ⟨c, ha, _⟩ := hi
    dsimp only
    rw [ha.resetTo]
    have hf := lex_floatImpl (dbg := dbg) (n := n) s hs
    unfold float tokP P.map P.bind
    cases hfo : floatImpl s with
    | ok a s1 =>
      rw [hfo] at hf
      obtain ⟨c, ha, rfl, hfl⟩ := hf
      have hni : ¬ IsInt a := by
        intro hint
        obtain ⟨c, cs, h1, h2⟩ := floatImpl_next hfo
        have := int_ok (cs := cs) s.pos s.errs hint h2
        rw [← h1, ← ha.rest] at this
        have : int s = _ := this
        rw [hio] at this; cases this
      exact ⟨a, ha, Toks.one (k := .FLOAT) ⟨hfl, hni⟩ (by show Kind.FLOAT ≠ Kind.ERROR; simp), IsFloat.ne_nil hfl⟩
    | fail e s1 => rw [hfo] at hf; exact hf
    | panic => rw [hfo] at hf; exact hf
    | oof => rw [hfo] at hf; exact hf

/-- `float` where the text does not start like an integer. -/
theorem lexTok_word_float {dbg : Bool} {n : Nat} : LexTok dbg n (fun s =>
    match s.rest with
    | c :: _ => if c == '.' || c == 'i' || c == 'n' then float s else P.fail s
    | [] => P.fail s) := by
  intro s hs
  have hfail : LexOut dbg (fun gs c => Toks NotErr gs c ∧ c ≠ []) s (P.fail s) := ⟨[], Adv.nil s, ErrIn.new s⟩
  dsimp only
  cases hr : s.rest with
  | nil => exact hfail
  | cons c cs =>
    dsimp only
    split
    · rename_i hc
      have hf := lex_floatImpl (dbg := dbg) (n := n) s hs
      unfold float tokP P.map P.bind
      cases hfo : floatImpl s with
      | ok a s1 =>
        rw [hfo] at hf
        obtain ⟨d, ha, rfl, hfl⟩ := hf
        have hni : ¬ IsInt a := by
          have hne := IsFloat.ne_nil hfl
          obtain ⟨x, y, rfl⟩ := List.exists_cons_of_ne_nil hne
          have : x = c := by
            have := ha.rest
            rw [hr] at this
            simp at this; exact this.1.symm
          subst this
          rintro ((⟨h, r, h1, h2, _⟩ | ⟨r, h1, _⟩) | ⟨r, h1 | h1, _⟩)
          all_goals
            cases h1
            first | (revert hc; decide) | skip
          revert h2; simp only [digits, List.mem_cons, List.not_mem_nil, or_false]
          rintro (rfl|rfl|rfl|rfl|rfl|rfl|rfl|rfl|rfl|rfl) <;> revert hc <;> decide
        exact ⟨a, ha, Toks.one (k := .FLOAT) ⟨hfl, hni⟩ (by show Kind.FLOAT ≠ Kind.ERROR; simp), IsFloat.ne_nil hfl⟩
      | fail e s1 => rw [hfo] at hf; exact hf
      | panic => rw [hfo] at hf; exact hf
      | oof => rw [hfo] at hf; exact hf
    · exact hfail

end Verif
