import Verif.Lemmas.CleanTok
import Verif.Lemmas.Root
/-!
Helper lemmas: string literals, and recovery from errors, of two texts that differ in names only.
-/
namespace Verif.Clean
open P Spec Sim

variable {J : Inv} {b st dbg : Bool} {n : Nat}

/-! ### String literals -/

theorem gives_esc {x r : Text} (hb : StrBody x) (hr : r = [] ∨ ['"'] <+: r ∨ ['\n'] <+: r ∨ ['\r', '\n'] <+: r) :
    Gives (fun s => takeEscapedF (s.rest.length + 1) s) (x ++ r) () r := by
  intro pos errs
  obtain ⟨s', h1, h2⟩ := takeEscapedF_complete hb (fuel := (x ++ r).length + 1) (s := ⟨x ++ r, pos, errs⟩) rfl (Nat.lt_succ_self _) hr
  have hl := lex_takeEscapedF (dbg := false) ((x ++ r).length + 1) (x ++ r).length (Nat.lt_succ_self _) ⟨x ++ r, pos, errs⟩ (Nat.le_refl _)
  rw [h1] at hl
  obtain ⟨c, ha, _⟩ := hl
  refine ⟨s'.pos, ?_⟩
  show takeEscapedF ((x ++ r).length + 1) ⟨x ++ r, pos, errs⟩ = _
  rw [h1, ← h2, ← show s'.errs = errs from ha.errs]

theorem gives_strAt {t u : Text} (h : StrAt t u) : Gives string (t ++ u) [.tok .STRING t] u := by
  obtain ⟨x, hx, rfl | ⟨rfl, hu⟩⟩ := h
  · exact gives_string ⟨x, hx, rfl⟩
  refine gives_tokP (gives_context (gives_take (c := '"' :: x) (a := if u = [] then [] else if u.head? = some '\n' then ['\n'] else ['\r', '\n']) ?_))
  refine gives_bind (gives_lit1 '"') (gives_bind (a := ()) (t' := u) (gives_esc hx ?_) ?_)
  · rcases hu with h | h | h
    · exact .inl h
    · exact .inr (.inr (.inl h))
    · exact .inr (.inr (.inr h))
  · rcases hu with rfl | ⟨y, rfl⟩ | ⟨y, rfl⟩
    · refine gives_alt_right (refuses_lit (by rintro ⟨_, h⟩; cases h)) (gives_alt_right (refuses_peek (refuses_alt (refuses_lit (by rintro ⟨_, h⟩; cases h))
        (refuses_alt (refuses_lit (by rintro ⟨_, h⟩; cases h)) refuses_alt_nil))) ?_)
      exact fun pos errs => ⟨pos, rfl⟩
    · exact gives_alt_right (refuses_lit (by rintro ⟨_, h⟩; cases h)) (gives_alt_left (gives_peek (gives_alt_left (gives_lit1 '\n'))))
    · exact gives_alt_right (refuses_lit (by rintro ⟨_, h⟩; cases h)) (gives_alt_left (gives_peek (gives_alt_right (refuses_lit (by rintro ⟨_, h⟩; cases h))
        (gives_lit ['\r', '\n']))))

theorem take_ok {α : Type} {p : P α} {s s1 : St} {t : Text} (h : take p s = .ok t s1) : ∃ a, p s = .ok a s1 := by
  unfold P.take at h
  cases hb : p s <;> simp only [hb] at h <;> cases h
  exact ⟨_, rfl⟩
theorem bindF {α β : Type} {p : P α} {f : α → P β} {s s1 : St} {e : Err} (h : p s = .fail e s1) : bind p f s = .fail e s1 := by
  unfold P.bind; rw [h]
theorem bindO {α β : Type} {p : P α} {f : α → P β} {s s1 : St} {a : α} (h : p s = .ok a s1) : bind p f s = f a s1 := by
  unfold P.bind; rw [h]

theorem string_ok {s s1 : St} {a : List Green} (h : string s = .ok a s1) : ∃ t, a = [.tok .STRING t] ∧ StrAt t s1.rest := by
  obtain ⟨t, h1, rfl⟩ := map_ok h
  refine ⟨t, rfl, ?_⟩
  have h2 := context_ok h1
  have hl := lex_stringImpl (dbg := false) (n := s.rest.length) s (Nat.le_refl _)
  rw [h2] at hl
  obtain ⟨_, ha, rfl, _⟩ := hl
  have he := ha.rest
  obtain ⟨_, hb⟩ := take_ok h2
  obtain ⟨_, s2, h3, h4⟩ := bind_ok hb
  obtain ⟨_, s3, h5, h6⟩ := bind_ok h4
  have h7 := lex_takeEscapedF (dbg := false) (s2.rest.length + 1) s2.rest.length (Nat.lt_succ_self _) s2 (Nat.le_refl _)
  rw [show takeEscapedF (s2.rest.length + 1) s2 = _ from h5] at h7
  obtain ⟨x, h7, hx⟩ := h7
  have e1 := (lit_adv h3).rest
  rw [h7.rest] at e1
  have fin : ∀ y : Text, s3.rest = y ++ s1.rest → t = '"' :: (x ++ y) := fun y hy => by
    rw [e1, hy] at he
    have : ('"' :: (x ++ y)) ++ s1.rest = t ++ s1.rest := by simpa using he
    exact (List.append_cancel_right this).symm
  refine ⟨x, hx, ?_⟩
  unfold alt at h6
  unfold P.alt2 at h6
  cases ha : lit ['"'] s3 <;> simp only [ha] at h6
  · cases h6
    exact .inl (fin _ (lit_adv ha).rest)
  · cases lit_fail_state ha
    unfold alt at h6
    unfold P.alt2 at h6
    rw [St.resetTo_self] at h6
    right
    cases hp : peek lineEnding s3 <;> simp only [hp] at h6
    · cases h6
      unfold P.peek at hp
      cases hq : lineEnding s3 <;> simp only [hq] at hp <;> cases hp
      refine ⟨by simpa using fin [] rfl, .inr ?_⟩
      unfold lineEnding alt at hq
      unfold P.alt2 at hq
      cases hr : lit ['\n'] s3 <;> simp only [hr] at hq
      · exact .inl ⟨_, (lit_adv hr).rest.symm⟩
      · cases lit_fail_state hr
        rw [St.resetTo_self] at hq
        exact .inr ⟨_, (lit_adv hq).rest.symm⟩
      all_goals cases hq
    · have hres : ∀ {e s4}, peek lineEnding s3 = .fail e s4 → s4.resetTo s3 = s3 := fun {e s4} h => by
        have := lex_peek (lex_lineEnding (dbg := false)) (n := _) s3 (Nat.le_refl _)
        rw [h] at this
        obtain ⟨c, hc, _⟩ := this
        exact hc.resetTo
      rw [hres hp] at h6
      simp only [alt, P.eof] at h6
      split at h6 <;> cases h6
      rename_i hemp
      exact ⟨by simpa using fin [] rfl, .inl (List.isEmpty_iff.mp hemp)⟩
    all_goals cases h6
  all_goals cases h6

theorem at_false {ss : List Seg} {s s' : St} (h : Sim.At true ss s s') (hp : Pl ss) : Sim.At false ss s s' :=
  ⟨fun x hx => by obtain ⟨c, rfl⟩ := hp x hx; trivial, h.l, h.r, h.errs⟩
theorem oks_plain {bs : Bool} {ss : List Seg} (hp : Pl ss) : Oks bs ss := fun x hx => by obtain ⟨c, rfl⟩ := hp x hx; trivial
theorem at_true {ss : List Seg} {s s' : St} (h : Sim.At false ss s s') (hp : Pl ss) : Sim.At true ss s s' := ⟨oks_plain hp, h.l, h.r, h.errs⟩
theorem Pl.right {a b : List Seg} (h : Pl (a ++ b)) : Pl b := fun x hx => h x (List.mem_append_right _ hx)
theorem Pl.left {a b : List Seg} (h : Pl (a ++ b)) : Pl a := fun x hx => h x (List.mem_append_left _ hx)

theorem newline_right {d : List Seg} (ho : Oks true d) (h : lft d = [] ∨ NewLine (lft d)) : rgt d = [] ∨ NewLine (rgt d) := by
  rcases h with h | h | h
  · exact .inl ((rgt_nil ho).mpr ((lft_nil ho).mp h))
  · have := (lit_split (t := ['\n']) (by decide) ho).1
    rw [List.isPrefixOf_iff_prefix.mpr h] at this
    exact .inr (.inl (List.isPrefixOf_iff_prefix.mp this.symm))
  · have := (lit_split (t := ['\r', '\n']) (by decide) ho).1
    rw [List.isPrefixOf_iff_prefix.mpr h] at this
    exact .inr (.inr (List.isPrefixOf_iff_prefix.mp this.symm))

theorem strAt_right {t : Text} {d : List Seg} (ho : Oks true d) (h : StrAt t (lft d)) : StrAt t (rgt d) := by
  obtain ⟨x, hx, h | ⟨h, hu⟩⟩ := h
  · exact ⟨x, hx, .inl h⟩
  · exact ⟨x, hx, .inr ⟨h, newline_right ho hu⟩⟩

theorem keeps_string : Keeps string := keeps_lex (dbg := false) fun _ => lexTok_string

theorem gives_at {α : Type} {p : P α} {t u : Text} {a : α} {s : St} (h : Gives p t a u) (hs : s.rest = t) : ∃ s1, p s = .ok a s1 ∧ s1.rest = u ∧ s1.errs = s.errs := by
  obtain ⟨pos', e⟩ := h s.pos s.errs
  exact ⟨⟨u, pos', s.errs⟩, by rw [← e, ← hs], rfl, rfl⟩
theorem refuses_at {α : Type} {p : P α} {t : Text} {s : St} (h : Refuses p t) (hs : s.rest = t) : ∃ e s1, p s = .fail e s1 ∧ s1.errs = s.errs := by
  obtain ⟨e, r, pos', h⟩ := h s.pos s.errs
  refine ⟨e, ⟨r, pos', s.errs⟩, ?_, rfl⟩
  rw [← h, ← hs]

theorem refuses_string {t : Text} (h : ¬ ['"'] <+: t) : Refuses string t :=
  refuses_tokP (refuses_context (refuses_take (refuses_bind (refuses_lit h))))

theorem grl_plain {c : List Seg} {k : Kind} (h : Pl c) (hne : c ≠ []) : GRL c [.tok k (lft c)] [.tok k (rgt c)] := .one (.tok k c)

theorem cl_string : Cl J b GV2 st n string string := by
  refine Cl.weak ⟨keeps_string.mono, fun ss s s' _ ha hb => .inr ?_⟩
  have hno : ¬ ['"'] <+: lft ss → COut J GV2 true ss (string s) (string s') := fun h => by
    have hr : ¬ ['"'] <+: rgt ss := fun h2 => by
      have := (lit_split (t := ['"']) (by decide) ha.at_.ok).1
      rw [List.isPrefixOf_iff_prefix.mpr h2] at this
      exact h (List.isPrefixOf_iff_prefix.mp this)
    obtain ⟨_, _, h1, h2⟩ := refuses_at (refuses_string h) ha.at_.l
    obtain ⟨_, _, h3, h4⟩ := refuses_at (refuses_string hr) ha.at_.r
    rw [h1, h3]
    exact ⟨h2.trans ha.errs, h4.trans ha.errs'⟩
  match ss, ha with
  | [], ha => exact hno (by rintro ⟨_, h⟩; cases h)
  | .name x y :: r, ha =>
    obtain ⟨⟨z, _, rfl, _⟩, _⟩ := ha.at_.ok (.name x y) (.head _)
    refine hno (by rintro ⟨_, h⟩; simp [lft, Seg.l] at h)
  | .ch c :: r, ha =>
    by_cases hc : c = '"'
    · subst hc
      rcases J.str ha.at_.ok.tail ha.inv with hp | ⟨c, d, e, h1, h2, h3⟩
      · have h := gsim_string (st := true) (n := _) _ _ _ (Nat.le_refl _) (at_false ha.at_ hp)
        cases h1 : string s <;> cases h2 : string s' <;> simp only [h1, h2, SimOut] at h
        · obtain ⟨c, r', e, h3, ⟨d, hd, hg⟩, hne⟩ := h
          rw [e] at hp ha ⊢
          obtain ⟨t, rfl, hs⟩ := string_ok h1
          have hw := (whole_lex (dbg := false) (fun _ => lexTok_string) fun _ _ h => h.1.1).2 _ _ _ h1
          have hr := at_true h3 (Pl.right hp)
          rw [ha.at_.l, h3.l, lft_append] at hw
          have e2 := List.append_cancel_right hw
          obtain rfl := sublist_same hd (ha.at_.ok).append_left (by rw [e2, hg.text])
          refine ⟨d, r', rfl, ⟨hr, (same_errs ha (keeps_string.ok h1) hr).1, J.plain (Pl.right hp)⟩, ⟨hg, ?_, trivial⟩, fun _ => hne trivial⟩
          rw [h3.l] at hs
          simpa [Green.toksL, Placed1] using hs
        · obtain ⟨c, r', e, h3⟩ := h
          rw [e] at hp
          exact same_errs ha (keeps_string.fail h1) (at_true h3 (Pl.right hp))
        · have := lexTok_string (dbg := false) (n := _) s (Nat.le_refl _)
          rw [h1] at this
          cases this.1
      · rw [e] at ha ⊢
        have ho := ha.at_.ok
        obtain ⟨s1, h4, h5, h6⟩ := gives_at (gives_strAt h2) (by rw [ha.at_.l, lft_append])
        obtain ⟨s2, h7, h8, h9⟩ := gives_at (gives_strAt (strAt_right ho.append_right h2)) (s := s') (by rw [ha.at_.r, rgt_append, h1.same])
        rw [h4, h7]
        have hne : c ≠ [] := by rintro rfl; obtain ⟨x, _, h | ⟨h, _⟩⟩ := h2 <;> cases h
        refine ⟨c, d, rfl, ⟨⟨ho.append_right, h5, h8, by rw [h6, h9, ha.errs, ha.errs']⟩, h6.trans ha.errs, h3⟩, ⟨?_, ?_, trivial⟩, fun _ => hne⟩
        · have := grl_plain (k := .STRING) h1 hne
          rw [← h1.same] at this
          exact this
        · simpa [Green.toksL, Placed1] using h2
    · exact hno (by rintro ⟨_, h⟩; simp [lft, Seg.l] at h; exact hc h.1.symm)

/-! ### Erroneous text -/

/-- `errorToken false`, without strings. -/
def errorTokenQ : G :=
  tokP .ERROR (bind (peek any) fun c =>
    if c == '$' then take (bind (lit ['$']) fun _ => takeWhile0 isIdChar)
    else if c == '(' || c == ')' then fail
    else if c == '"' then fail
    else if isIdChar c then takeWhile1 isIdChar
    else takeWhile1 fun c => !(c == '(' || c == ')' || isAsciiWs c))

theorem gsim_errorTokenQ : Sim true GV true n errorTokenQ errorTokenQ := by
  refine gsim_tok (sim_bind (st1 := false) (st2 := true) sim_peekAny fun c x y hxy _ m hm => ?_)
  obtain ⟨rfl, rfl⟩ := hxy
  simp only [List.nil_append]
  refine sim_ite rfl (sim_taken sim_dollar0) (sim_ite rfl sim_fail (sim_ite rfl sim_fail (sim_ite rfl ?_ ?_)))
  · exact (sim_takeWhile1 uni_id).mono fun _ _ _ h => h.1
  · refine (sim_takeWhile1 (.inr fun c h => ?_)).mono fun _ _ _ h => h.1
    have := idChar_ne h
    simp [this.1, this.2.1, this.2.2.2.2.2.2]

theorem errorTokenQ_eq {s : St} (h : ¬ ['"'] <+: s.rest) : errorToken false s = errorTokenQ s := by
  unfold errorToken errorTokenQ tokP P.map P.bind P.peek P.any
  obtain ⟨rest, pos, errs⟩ := s
  cases rest with
  | nil => rfl
  | cons c r =>
    have hc : (c == '"') = false := by
      cases hq : c == '"'
      · rfl
      · exact absurd ⟨r, by rw [← eq_of_beq hq]; rfl⟩ h
    simp only [hc]
    rfl

theorem errorToken_quote {s : St} {r : Text} (h : s.rest = '"' :: r) : (∃ a s1, string s = .ok a s1) → ∃ a s1, errorToken false s = .ok a s1 := by
  rintro ⟨a, s1, h1⟩
  obtain ⟨t, h2, rfl⟩ := map_ok h1
  have h2 := context_ok h2
  obtain ⟨rest, pos, errs⟩ := s
  subst h
  refine ⟨[.tok .ERROR t], s1, ?_⟩
  unfold errorToken tokP P.map P.bind P.peek P.any
  simp only [St.resetTo]
  have hd : isIdChar '"' = false := by decide
  simp only [hd, show (('"' == '$') = false) from rfl, show (('"' == '(' || '"' == ')') = false) from rfl, show (('"' == '"') = true) from rfl, if_true, Bool.false_eq_true, if_false]
  rw [h2]
  rfl

theorem unexpected_fail {ss : List Seg} {s s' s4 : St} {e : Err} (ha : At2 J ss s s') (h : unexpectedToken s = .fail e s4) :
    ∃ e' s4' r, unexpectedToken s' = .fail e' s4' ∧ Sim.At true r s4 s4' ∧ s4.rest.length ≤ s.rest.length := by
  have hlen : s4.rest.length ≤ s.rest.length := by
    have := lex_unexpectedToken (dbg := false) (n := _) s (Nat.le_refl _)
    rw [h] at this
    obtain ⟨c, hc, _⟩ := this
    have := hc.length
    omega
  have main : ¬ ['"'] <+: lft ss → ∃ e' s4' r, unexpectedToken s' = .fail e' s4' ∧ Sim.At true r s4 s4' ∧ s4.rest.length ≤ s.rest.length := fun hq => by
    have hr : ¬ ['"'] <+: rgt ss := fun h2 => by
      have := (lit_split (t := ['"']) (by decide) ha.at_.ok).1
      rw [List.isPrefixOf_iff_prefix.mpr h2] at this
      exact hq (List.isPrefixOf_iff_prefix.mp this)
    have hs := sim_context (m := .label "unexpected token") (m' := .label "unexpected token") (gsim_errorTokenQ (n := ss.length)) ss s s' (Nat.le_refl _) ha.at_
    have e1 : context (.label "unexpected token") errorTokenQ s = unexpectedToken s := by
      unfold unexpectedToken P.context; rw [errorTokenQ_eq (by rwa [ha.at_.l])]
    have e2 : context (.label "unexpected token") errorTokenQ s' = unexpectedToken s' := by
      unfold unexpectedToken P.context; rw [errorTokenQ_eq (by rwa [ha.at_.r])]
    rw [e1, e2, h] at hs
    cases h2 : unexpectedToken s' <;> simp only [h2, SimOut] at hs
    obtain ⟨c, r, _, h3⟩ := hs
    exact ⟨_, _, r, rfl, h3, hlen⟩
  match ss, ha with
  | [], ha => exact main (by rintro ⟨_, h⟩; cases h)
  | .name x y :: r, ha =>
    obtain ⟨⟨z, _, rfl, _⟩, _⟩ := ha.at_.ok (.name x y) (.head _)
    refine main (by rintro ⟨_, h⟩; simp [lft, Seg.l] at h)
  | .ch c :: r, ha =>
    by_cases hc : c = '"'
    · subst hc
      rcases J.str ha.at_.ok.tail ha.inv with hp | ⟨c, d, e, h1, h2, h3⟩
      · have hs := gsim_unexpected (n := _) _ _ _ (Nat.le_refl _) (at_false ha.at_ hp)
        rw [h] at hs
        cases h2 : unexpectedToken s' <;> simp only [h2, SimOut] at hs
        obtain ⟨c, r', e, h3⟩ := hs
        rw [e] at hp
        exact ⟨_, _, r', rfl, at_true h3 (Pl.right hp), hlen⟩
      · have hl := ha.at_.l
        obtain ⟨s1, h4, h5, h6⟩ := gives_at (s := s) (gives_strAt h2) (by rw [hl, e, lft_append])
        obtain ⟨a, s2, h7⟩ := errorToken_quote (s := s) (r := lft r) (by rw [hl]; rfl) ⟨_, _, h4⟩
        unfold unexpectedToken P.context at h
        rw [h7] at h
        cases h
    · exact main (by rintro ⟨_, h⟩; simp [lft, Seg.l] at h; exact hc h.1.symm)

theorem unexpected_moves {s s1 : St} {a : List Green} (h : unexpectedToken s = .ok a s1) : s1.rest.length < s.rest.length := by
  have := lex_errorToken (dbg := false) (n := _) false s (Nat.le_refl _)
  rw [context_ok h] at this
  obtain ⟨c, hc, _, _, hne⟩ := this
  have := hc.length
  have := List.length_pos_iff.mpr hne
  omega

theorem lex_ne_fail {α : Type} {p : P α} {Q : α → Text → Prop} {m : Nat} (hp : Lex dbg m Q p) (hq : ∀ a c, Q a c → c ≠ []) :
    ∀ fuel s e s', s.rest.length ≤ m → repeatF dbg p fuel s ≠ .fail e s' := by
  intro fuel
  induction fuel with
  | zero => intro s e s' _ h; simp [P.repeatF] at h
  | succ fuel ih =>
    intro s e s' hm h
    unfold P.repeatF at h
    have hl := hp s hm
    cases hps : p s <;> simp only [hps, LexOut] at h hl
    · rename_i a s1
      obtain ⟨c, hc, hq1⟩ := hl
      have := hc.length
      have := List.length_pos_iff.mpr (hq _ _ hq1)
      rw [if_neg (by omega)] at h
      exact ih _ _ _ (by omega) (map_fail h)
    all_goals cases h

theorem errorTermInner_ok {s s1 : St} {e : Err} (h : errorTermInner dbg (s.rest.length + 1) s = .fail e s1) : ¬ ['('] <+: s.rest := by
  intro hp
  unfold errorTermInner seq at h
  rcases bind_fail h with h | ⟨a, s2, h1, h⟩
  · have h := map_fail h
    rw [lit_ok hp] at h
    cases h
  have hs2 : s2.rest.length < s.rest.length := by
    obtain ⟨_, h1, _⟩ := map_ok h1
    have := (lit_adv h1).length
    simp at this
    omega
  have h := map_fail h
  unfold seq at h
  rcases bind_fail h with h | ⟨a2, s3, h2, h⟩
  · have h := map_fail h
    refine lex_ne_fail (m := s2.rest.length) (Q := fun gs c => Toks AnyKind gs c ∧ c ≠ []) ?_ (fun _ _ h => h.2) _ s2 _ _ (Nat.le_refl _) h
    refine lex_bind (Q := Toks AnyKind) (lex_trivias.mono fun _ _ h => h.any) fun a c h1 => ?_
    refine lex_map (Q := fun gs c => Toks AnyKind gs c ∧ c ≠ []) ?_ fun b d hd => ⟨h1.append hd.1, by simp [hd.2]⟩
    refine lex_bind (Q := fun gs c => Toks AnyKind gs c ∧ c ≠ []) ?_ fun a c h => lex_pure (by simpa using h)
    refine lex_bind (lex_peek (Q := fun _ _ => True) (lex_opt (lex_lit _) (fun _ _ _ => trivial) trivial)) fun o c hc => ?_
    subst hc
    simp only [List.nil_append]
    split
    · refine (lex_errorTermInner _ _ (by omega)).mono fun _ _ h => ⟨h.1, ?_⟩
      rintro rfl; simp at h
    · exact (lex_errorToken false).mono fun _ _ h => ⟨h.1, h.2.2⟩
  · have h := map_fail h
    unfold seq at h
    rcases bind_fail h with h | ⟨a3, s4, _, h⟩
    · have h := map_fail h
      unfold P.opt at h
      cases hx : tokP .ERROR (lit [')']) s3 <;> simp only [hx] at h <;> cases h
    · have h := map_fail h
      cases h

/-- No term that is not understood: the same on both sides. -/
theorem errorTerm_fail {al : List Text} {r : List Seg} {s s' s1 : St} {e : Err} (hal : ∀ a ∈ al, '$' ∉ a) (ha : Sim.At true r s s') (h0 : s.errs = [])
    (h : errorTerm dbg al s = .fail e s1) : s1.errs = [] ∧ ∃ e' s1', errorTerm dbg al s' = .fail e' s1' ∧ s1'.errs = [] := by
  have h0' : s'.errs = [] := by
    have := ha.errs; rw [h0] at this; exact List.length_eq_zero_iff.mp this.symm
  have k1 : s1.errs = [] := by
    have := (keeps_lex (fun _ => lex_errorTerm (dbg := dbg) al)).fail h
    rw [this, h0]
  have k2 : ∀ {e' s1'}, errorTerm dbg al s' = .fail e' s1' → s1'.errs = [] := fun h => by
    rw [(keeps_lex (fun _ => lex_errorTerm (dbg := dbg) al)).fail h, h0']
  refine ⟨k1, ?_⟩
  suffices ∃ e' s1', errorTerm dbg al s' = .fail e' s1' by
    obtain ⟨e', s1', h⟩ := this
    exact ⟨e', s1', h, k2 h⟩
  have hs : Sim true (fun c (_ _ : Unit) => c = []) false r.length (peek (P.not (bind (trivias dbg) fun _ => bind (lit ['(']) fun _ =>
      bind (trivias dbg) fun _ => verify (fun w => al.any fun a => w == a) word))) (peek (P.not (bind (trivias dbg) fun _ => bind (lit ['(']) fun _ =>
      bind (trivias dbg) fun _ => verify (fun w => al.any fun a => w == a) word))) := by
    refine (sim_peek (V := fun c _ _ => c = []) (sim_not (V := fun _ _ _ => True) (st := true) ?_)).mono fun _ _ _ h => h.1
    refine sim_bind (st1 := false) (st2 := true) gsim_trivias fun _ _ _ _ _ m _ => ?_
    refine sim_bind (st1 := true) (st2 := true) (sim_lit (by decide)) fun _ _ _ _ _ m _ => ?_
    refine sim_bind (st1 := false) (st2 := true) gsim_trivias fun _ _ _ _ _ m _ => ?_
    exact (sim_verify sim_words fun _ _ _ h => h.any hal).any
  have hs := hs r s s' (Nat.le_refl _) ha
  unfold errorTerm at h ⊢
  rcases bind_fail h with h | ⟨_, s2, h1, h⟩
  · rw [h] at hs
    generalize peek (P.not (bind (trivias dbg) fun _ => bind (lit ['(']) fun _ =>
      bind (trivias dbg) fun _ => verify (fun w => al.any fun a => w == a) word)) = pp at hs ⊢
    cases h2 : pp s' <;> simp only [h2, SimOut] at hs
    exact ⟨_, _, bindF h2⟩
  · rw [h1] at hs
    generalize peek (P.not (bind (trivias dbg) fun _ => bind (lit ['(']) fun _ =>
      bind (trivias dbg) fun _ => verify (fun w => al.any fun a => w == a) word)) = pp at hs ⊢
    cases h2 : pp s' with
    | ok a2 s2' =>
      simp only [h2, SimOut] at hs
      obtain ⟨c, r', rfl, h3, rfl, _⟩ := hs
      have hn := errorTermInner_ok h
      rw [h3.l] at hn
      have hr : ¬ ['('] <+: rgt r' := fun h2 => by
        have := (lit_split (t := ['(']) (by decide) h3.ok).1
        rw [List.isPrefixOf_iff_prefix.mpr h2] at this
        exact hn (List.isPrefixOf_iff_prefix.mp this)
      obtain ⟨e', s3, h4, _⟩ := refuses_at (s := s2') (errorTermInner_refuses (dbg := dbg) (n := s2'.rest.length) hr) h3.r
      exact ⟨_, _, (bindO h2).trans h4⟩
    | fail _ _ => simp only [h2, SimOut] at hs
    | panic => simp only [h2, SimOut] at hs
    | oof => simp only [h2, SimOut] at hs

theorem errorTerm_moves {al : List Text} {s s1 : St} {a : List Green} (h : errorTerm dbg al s = .ok a s1) : s1.rest.length < s.rest.length := by
  have := lex_errorTerm (dbg := dbg) (n := _) al s (Nat.le_refl _)
  rw [h] at this
  obtain ⟨c, hc, _, ⟨x, hx⟩⟩ := this
  have := hc.length
  rw [← hx] at this
  simp at this
  omega

/-! ### Recovery -/

theorem cl_retryRound {p q : G} {al : List Text} {again again' : List Green → G} (hp : Cl J true GV2 true n p q) (hm : ∀ acc, Mono (again acc))
    (hal : ∀ a ∈ al, '$' ∉ a) : Cl J b GV2 st n (retryRound dbg p al [] again) (retryRound dbg q al [] again') := by
  refine Cl.weak ⟨mono_retryRound hp.mono hm, fun ss s s' hl ha hb => ?_⟩
  have h := cl_trivClear (J := J) (b := b) (dbg := dbg) (n := n) |>.sim ss s s' hl ha hb
  cases h1 : trivias dbg s with
  | panic => left; unfold retryRound; rw [h1]; trivial
  | oof => left; unfold retryRound; rw [h1]; trivial
  | fail e s1 =>
    rw [h1] at h
    rcases h with h | h
    · left; unfold retryRound; rw [h1]; exact h
    · right
      cases h2 : trivias dbg s' <;> simp only [h2, COut] at h
      unfold retryRound; rw [h1, h2]; exact h
  | ok tr s1 =>
    have hk : s1.errs = [] := by rw [(keeps_lex (fun _ => lex_trivias (dbg := dbg))).ok h1, ha.errs]
    rw [h1] at h
    rcases h with h | h
    · exact absurd hk h
    cases h2 : trivias dbg s' with
    | ok tr' s1' =>
      simp only [h2, COut] at h
      obtain ⟨c, r, rfl, h3, ⟨hv, hcl⟩, _⟩ := h
      have hp1 := hp.sim r s1 s1' (by simp at hl; omega) h3 fun _ => hcl
      unfold retryRound
      simp only [h1, h2]
      cases h4 : p s1 with
      | panic => exact .inl trivial
      | oof => exact .inl trivial
      | ok o s2 =>
        rw [h4] at hp1
        rcases hp1 with hp1 | hp1
        · exact .inl hp1
        right
        cases h5 : q s1' <;> simp only [h5, COut] at hp1
        obtain ⟨d, r', rfl, h6, h7, h8⟩ := hp1
        exact ⟨c ++ d, r', by simp, h6, by simpa using hv.append h7, fun _ => by simp [h8 trivial]⟩
      | fail e s2 =>
        rw [h4] at hp1
        by_cases he : s2.errs = []
        case neg =>
          left
          have h0 : (s2.resetTo s1).errs ≠ [] := he
          simp only
          cases h5 : unexpectedToken (s2.resetTo s1) with
          | panic => trivial
          | oof => trivial
          | ok et s4 =>
            simp only
            rw [if_neg (by have := unexpected_moves h5; omega)]
            exact bad_of_mono (hm _) (record_errs _ _)
          | fail e4 s4 =>
            have h9 : s4.errs ≠ [] := fun h => h0 (mono_unexpectedToken.fail h5 h)
            simp only
            cases h6 : errorTerm dbg al s4 with
            | panic => trivial
            | oof => trivial
            | ok ets s6 =>
              simp only
              split
              · exact fun h => h9 (mono_errorTerm.ok h6 h)
              · exact record_errs _ _
            | fail e6 s6 => exact fun h => h9 (mono_errorTerm.fail h6 h)
        case pos =>
          rcases hp1 with hp1 | hp1
          · exact absurd he hp1
          cases h5 : q s1' with
          | ok _ _ => simp only [h5, COut] at hp1
          | panic => simp only [h5, COut] at hp1
          | oof => simp only [h5, COut] at hp1
          | fail e' s2' =>
            simp only [h5, COut] at hp1
            have hr := h3.reset hp1.1 hp1.2
            simp only
            cases h6 : unexpectedToken (s2.resetTo s1) with
            | panic => exact .inl trivial
            | oof => exact .inl trivial
            | ok et s4 =>
              left
              simp only
              rw [if_neg (by have := unexpected_moves h6; omega)]
              exact bad_of_mono (hm _) (record_errs _ _)
            | fail e4 s4 =>
              obtain ⟨e5, s4', r4, h7, h8, h9⟩ := unexpected_fail hr h6
              have h10 : s4.errs = [] := by
                rw [(keeps_lex (dbg := false) fun _ => lex_unexpectedToken).fail h6]; exact hp1.1
              simp only [h7]
              cases h11 : errorTerm dbg al s4 with
              | panic => exact .inl trivial
              | oof => exact .inl trivial
              | ok ets s6 =>
                left
                simp only
                rw [if_neg (by have := errorTerm_moves h11; omega)]
                exact record_errs _ _
              | fail e6 s6 =>
                obtain ⟨h12, e7, s7, h13, h14⟩ := errorTerm_fail hal h8 h10 h11
                simp only [h13]
                exact .inr ⟨h12, h14⟩
    | fail _ _ => simp only [h2, COut] at h
    | panic => simp only [h2, COut] at h
    | oof => simp only [h2, COut] at h

theorem cl_retryOnce {p q : G} {al : List Text} (hp : Cl J true GV2 true n p q) (hal : ∀ a ∈ al, '$' ∉ a := by decide) :
    Cl J b GV2 st n (retryOnce dbg p al) (retryOnce dbg q al) := cl_retryRound hp (fun _ => mono_pure) hal

theorem cl_retry {p q : G} {al : List Text} (hp : Cl J true GV2 true n p q) (hal : ∀ a ∈ al, '$' ∉ a := by decide) :
    Cl J b GV2 st n (retry dbg p al) (retry dbg q al) :=
  ⟨.of (fun s a s' h he => (mono_retryF hp.mono _ _).ok h he) (fun s e s' h he => (mono_retryF hp.mono _ _).fail h he),
    fun ss s s' hl ha hb => (cl_retryRound (st := st) (again := retryF dbg p al s.rest.length) (again' := retryF dbg q al s'.rest.length) hp
      (fun acc => mono_retryF hp.mono _ acc) hal).sim ss s s' hl ha hb⟩

theorem qlex_rTok : QuietLex (tokP .R_PAREN (lit [')'])) :=
  qlex_tokP (fun n => (lex_lit _).mono fun _ _ h => ⟨h.1.trans h.2.symm, by rw [h.2]; unfold QuietC; decide⟩) rfl
theorem cl_rTok : Cl J b GV2 st n (tokP .R_PAREN (lit [')'])) (tokP .R_PAREN (lit [')'])) :=
  cl_leaf (fun _ => gsim_tok ((sim_lit (by decide)).mono fun _ _ _ => TV_lit)) qlex_rTok

theorem mono_rPF {start : St} {f : Nat} {acc : List Green} : Mono (rParenF dbg start f acc) :=
  .of (fun s a s' h he => by have := mono_rParenF (dbg := dbg) (start := start) f acc s; rw [h] at this; exact this he)
    (fun s e s' h he => by have := mono_rParenF (dbg := dbg) (start := start) f acc s; rw [h] at this; exact this he)

theorem cl_rParen : Cl J b GV2 false n (rParen dbg) (rParen dbg) := by
  refine ⟨.of (fun s a s' h he => mono_rPF.ok h he) (fun s e s' h he => mono_rPF.fail h he), fun ss s s' hl ha hb => ?_⟩
  have h := cl_trivClear (J := J) (b := b) (dbg := dbg) (n := n) |>.sim ss s s' hl ha hb
  unfold rParen rParenF
  cases h1 : trivias dbg s with
  | panic => exact .inl trivial
  | oof => exact .inl trivial
  | fail e s1 =>
    rw [h1] at h
    rcases h with h | h
    · exact .inl h
    · right
      cases h2 : trivias dbg s' <;> simp only [h2, COut] at h
      simp only; exact h
  | ok tr s1 =>
    have hk : s1.errs = [] := by rw [(keeps_lex (fun _ => lex_trivias (dbg := dbg))).ok h1, ha.errs]
    rw [h1] at h
    rcases h with h | h
    · exact absurd hk h
    cases h2 : trivias dbg s' with
    | ok tr' s1' =>
      simp only [h2, COut] at h
      obtain ⟨c, r, rfl, h3, ⟨hv, hcl⟩, _⟩ := h
      have hp1 := (cl_rTok (b := false) (st := true)).sim r s1 s1' (n := n) (by simp at hl; omega) h3 fun h => by cases h
      simp only
      cases h4 : lit [')'] s1 with
      | ok w s2 =>
        have e1 : tokP .R_PAREN (lit [')']) s1 = .ok [.tok .R_PAREN w] s2 := by unfold tokP P.map; rw [bindO h4]; rfl
        have hw : w = [')'] := by unfold P.lit at h4; split at h4 <;> cases h4; rfl
        rw [e1] at hp1
        rcases hp1 with hp1 | hp1
        · exact .inl (by simp only [P.context, h4]; exact hp1)
        cases h5 : lit [')'] s1' with
        | ok w' s2' =>
          have e2 : tokP .R_PAREN (lit [')']) s1' = .ok [.tok .R_PAREN w'] s2' := by unfold tokP P.map; rw [bindO h5]; rfl
          have hw' : w' = [')'] := by unfold P.lit at h5; split at h5 <;> cases h5; rfl
          rw [e2] at hp1
          obtain ⟨d, r', rfl, h6, h7, h8⟩ := hp1
          right
          simp only [P.context, h4, h5]
          subst hw hw'
          exact ⟨c ++ d, r', by simp, h6, by simpa using hv.append h7, fun h => by cases h⟩
        | fail _ _ =>
          have e2 : tokP .R_PAREN (lit [')']) s1' = .fail _ _ := bindF h5
          rw [e2] at hp1; cases hp1
        | panic => unfold P.lit at h5; split at h5 <;> cases h5
        | oof => unfold P.lit at h5; split at h5 <;> cases h5
      | fail e s2 =>
        left
        simp only [P.context, h4]
        cases h6 : unexpectedToken (s2.resetTo s1) with
        | panic => trivial
        | oof => trivial
        | ok et s4 =>
          simp only
          rw [if_neg (by have := unexpected_moves h6; omega)]
          exact bad_of_mono mono_rPF (record_errs _ _)
        | fail e4 s4 => exact record_errs _ _
      | panic => unfold P.lit at h4; split at h4 <;> cases h4
      | oof => unfold P.lit at h4; split at h4 <;> cases h4
    | fail _ _ => simp only [h2, COut] at h
    | panic => simp only [h2, COut] at h
    | oof => simp only [h2, COut] at h

end Verif.Clean
