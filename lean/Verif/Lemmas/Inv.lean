import Verif.Lemmas.TokenLex2
import Verif.Model.Grammar
/-!
Helper lemmas: a generic invariant for grammar parsers and its closure under the combinators.
-/
namespace Verif
open P Spec

/-- `s'` is further in the same text than `s`. -/
def Suf (s s' : St) : Prop := ∃ c, s.rest = c ++ s'.rest ∧ s'.pos = s.pos + bytes c

theorem Suf.refl (s : St) : Suf s s := ⟨[], by simp, by simp [bytes]⟩

theorem Suf.trans {s s1 s2} (h1 : Suf s s1) (h2 : Suf s1 s2) : Suf s s2 := by
  obtain ⟨c, hc, pc⟩ := h1
  obtain ⟨d, hd, pd⟩ := h2
  exact ⟨c ++ d, by rw [hc, hd]; simp, by rw [pd, pc, bytes_append]; omega⟩

theorem Adv.suf {s c s'} (h : Adv s c s') : Suf s s' := ⟨c, h.rest, h.pos⟩

theorem Suf.length {s s'} (h : Suf s s') : s'.rest.length ≤ s.rest.length := by
  obtain ⟨c, hc, _⟩ := h; rw [hc]; simp

theorem Suf.reset {s s' : St} (_ : Suf s s') : Suf s (s'.resetTo s) := Suf.refl s

theorem Suf.resetTo {s s1 s2 : St} (h : Suf s s1) : Suf s (s2.resetTo s1) := h

theorem Suf.hasBC {s s'} (h : Suf s s') (hb : HasBC s'.rest) : HasBC s.rest := by
  obtain ⟨c, hc, _⟩ := h; rw [hc]; exact hb.append

/-- An invariant of grammar parsers: what holds of a success (`R start children end`) and of a failure
(`F start error end`), under an assumption `C` on the remaining text. -/
structure PInv where
  C : Text → Prop
  R : St → List Green → St → Prop
  F : St → Err → St → Prop
  C_suf : ∀ {a b}, C (a ++ b) → C b
  R_nil : ∀ s, R s [] s
  R_trans : ∀ {s s1 s2 a b}, Suf s s1 → Suf s1 s2 → R s a s1 → R s1 b s2 → R s (a ++ b) s2
  R_F : ∀ {s s1 s2 a e}, Suf s s1 → Suf s1 s2 → R s a s1 → F s1 e s2 → F s e s2
  F_ctx : ∀ {s s' e m}, Suf s s' → F s e s' → F s { e with start := s'.pos, msg := m } s'
  F_stamp : ∀ {s s' e}, Suf s s' → F s e s' → F s (e.stamp s') s'
  F_move : ∀ {s s2 s4 e}, Suf s s2 → Suf s s4 → F s e s2 → s4.errs = s2.errs → F s e s4
  F_drop : ∀ {s s' e}, Suf s s' → F s e s' → R s [] (s'.resetTo s)
  F_record : ∀ {s s' e}, Suf s s' → F s e s' → R s [] ((s'.record e).resetTo s)
  R_wrap : ∀ {s s' k a b}, k ≠ .VAL_TYPE → R s (a ++ b) s' → R s (a ++ [.node k b]) s'
  R_tok : ∀ {s s' k c}, k ≠ .ERROR → TokenShape k c → Adv s c s' → R s [.tok k c] s'
  R_val : ∀ {s s' k c}, TokenShape k c → k = .NUM_TYPE ∨ k = .VEC_TYPE ∨ k = .REF_TYPE → Adv s c s' →
    R s [.node .VAL_TYPE [.tok k c]] s'
  F_lex : ∀ {s s' c e}, Adv s c s' → ErrIn s e → F s e s'
  R_err : ∀ {s s2 s4 e c0 d ets}, C s.rest → Suf s s2 → F s e s2 → Adv (s2.resetTo s) (c0 ++ d) s4 →
    Toks AnyKind ets d → d ≠ [] → (c0 = [] ∨ BadQuote s.rest) → R s ets (s4.record e)

variable {I : PInv} {dbg : Bool} {n : Nat} {st : Bool}

theorem PInv.C_of_suf (I : PInv) {s s'} (h : Suf s s') (hc : I.C s.rest) : I.C s'.rest := by
  obtain ⟨c, hr, _⟩ := h; rw [hr] at hc; exact I.C_suf hc

/-- Outcome predicate. `st`: a success has consumed something. -/
def SatOut (I : PInv) (dbg st : Bool) (s : St) : Out (List Green) → Prop
  | .ok a s' => I.R s a s' ∧ Suf s s' ∧ (st = true → s'.rest.length < s.rest.length)
  | .fail e s' => I.F s e s' ∧ Suf s s'
  | .panic => dbg = true ∧ HasBC s.rest
  | .oof => False

/-- A grammar parser that maintains the invariant on inputs of at most `n` characters. -/
def Sat (I : PInv) (dbg st : Bool) (n : Nat) (p : G) : Prop :=
  ∀ s : St, s.rest.length ≤ n → I.C s.rest → SatOut I dbg st s (p s)

theorem Sat.le {p : G} {m : Nat} (h : Sat I dbg st n p) (hm : m ≤ n) : Sat I dbg st m p :=
  fun s hs => h s (by omega)

theorem SatOut.weak {s : St} {o : Out (List Green)} (h : SatOut I dbg true s o) : SatOut I dbg st s o := by
  cases o <;> simp only [SatOut] at h ⊢ <;> try exact h
  exact ⟨h.1, h.2.1, fun _ => h.2.2 trivial⟩

theorem Sat.weak {p : G} (h : Sat I dbg true n p) : Sat I dbg st n p := fun s hs hc => (h s hs hc).weak

/-- Prepend to a successful result. -/
def Out.prep (a : List Green) : Out (List Green) → Out (List Green)
  | .ok b s' => .ok (a ++ b) s'
  | .fail e s' => .fail e s'
  | .panic => .panic
  | .oof => .oof

/-- Continue after a successful part. -/
theorem SatOut.after {st1 : Bool} {s s1 : St} {a : List Green} {o : Out (List Green)} (hR : I.R s a s1) (hs : Suf s s1)
    (h : SatOut I dbg st1 s1 o) (hst : st = true → st1 = true ∨ s1.rest.length < s.rest.length) :
    SatOut I dbg st s (o.prep a) := by
  cases o <;> simp only [SatOut, Out.prep] at h ⊢
  · refine ⟨I.R_trans hs h.2.1 hR h.1, hs.trans h.2.1, fun hh => ?_⟩
    have l1 := hs.length
    have l2 := h.2.1.length
    rcases hst hh with hst | hst
    · have := h.2.2 hst; omega
    · omega
  · exact ⟨I.R_F hs h.2 hR h.1, hs.trans h.2⟩
  · exact ⟨h.1, hs.hasBC h.2⟩

theorem map_append_eq (a : List Green) (p : G) (s : St) : map (a ++ ·) p s = ((p s).prep a) := by
  unfold P.map P.bind P.pure; cases p s <;> rfl

/-- Token lists read by lexical parsers satisfy the invariant. -/
theorem R_toks {gs : List Green} : ∀ {s s' : St} {c : Text}, Toks NotErr gs c → Adv s c s' → I.R s gs s' := by
  induction gs with
  | nil =>
    intro s s' c h ha
    have := h.1; simp [Green.textL] at this; subst this
    rw [ha.eq_of_nil]; exact I.R_nil s
  | cons g gs ih =>
    intro s s' c h ha
    obtain ⟨k, t, rfl, hs, hk⟩ := h.2 g (by simp)
    have hc := h.1
    simp only [Green.textL, Green.text] at hc
    have hr : s.rest = t ++ (Green.textL gs ++ s'.rest) := by rw [ha.rest, ← hc]; simp
    have h1 := adv_of_append hr
    have h2 : Adv { s with rest := s.rest.drop t.length, pos := s.pos + bytes t } (Green.textL gs) s' :=
      ⟨by simp [hr], by rw [ha.pos, ← hc, bytes_append]; simp; omega, ha.errs⟩
    have := I.R_trans h1.suf h2.suf (I.R_tok hk hs h1)
      (ih ⟨rfl, fun g hg => h.2 g (by simp [hg])⟩ h2)
    simpa using this

theorem sat_lex {Q : List Green → Text → Prop} {p : G} (h : Lex dbg n Q p)
    (hq : ∀ gs c, Q gs c → Toks NotErr gs c ∧ (st = true → c ≠ [])) : Sat I dbg st n p := by
  intro s hs _
  have := h s hs
  cases hp : p s <;> simp only [hp, LexOut] at this <;> simp only [SatOut]
  · obtain ⟨c, ha, hc⟩ := this
    obtain ⟨h1, h2⟩ := hq _ _ hc
    refine ⟨R_toks h1 ha, ha.suf, fun hst => ?_⟩
    have := ha.length
    have := List.length_pos_iff.mpr (h2 hst)
    omega
  · obtain ⟨c, ha, he⟩ := this
    exact ⟨I.F_lex ha he, ha.suf⟩
  · exact this

theorem sat_lexTok {p : G} (h : LexTok dbg n p) : Sat I dbg st n p :=
  sat_lex h fun _ _ h => ⟨h.1, fun _ => h.2⟩

theorem sat_trivias : Sat I dbg false n (trivias dbg) :=
  sat_lex lex_trivias fun _ _ h => ⟨h.notErr, by simp⟩

theorem sat_fail : Sat I dbg st n (P.fail) :=
  fun s _ _ => ⟨I.F_lex (Adv.nil s) (ErrIn.new s), Suf.refl s⟩

theorem sat_nil : Sat I dbg false n (pure []) := fun s _ _ => ⟨I.R_nil s, Suf.refl s, by simp⟩

theorem sat_seq_nil : Sat I dbg false n (seq []) := sat_nil

theorem sat_seq_cons {p : G} {ps : List G} (hp : Sat I dbg false n p) (hps : Sat I dbg st n (seq ps)) :
    Sat I dbg st n (seq (p :: ps)) := by
  intro s hs hc
  have h := hp s hs hc
  show SatOut I dbg st s (bind p (fun a => map (a ++ ·) (seq ps)) s)
  unfold P.bind
  cases hps' : p s <;> simp only [hps'] at h ⊢ <;> try exact h
  rw [map_append_eq]
  have hl := h.2.1.length
  exact SatOut.after h.1 h.2.1 (hps _ (by omega) (I.C_of_suf h.2.1 hc)) .inl

theorem sat_seq_consC {p : G} {ps : List G} (hp : Sat I dbg true n p)
    (hps : ∀ m < n, Sat I dbg false m (seq ps)) : Sat I dbg st n (seq (p :: ps)) := by
  intro s hs hc
  have h := hp s hs hc
  show SatOut I dbg st s (bind p (fun a => map (a ++ ·) (seq ps)) s)
  unfold P.bind
  cases hps' : p s <;> simp only [hps'] at h ⊢ <;> try exact h
  rw [map_append_eq]
  have hl := h.2.2 rfl
  exact SatOut.after h.1 h.2.1 (hps _ (by omega) _ (Nat.le_refl _) (I.C_of_suf h.2.1 hc)) fun _ => .inr hl

theorem sat_tp {p : G} (hp : Sat I dbg st n p) : Sat I dbg st n (tp dbg p) := by
  intro s hs hc
  have h := sat_trivias (I := I) (dbg := dbg) s hs hc
  show SatOut I dbg st s (bind (trivias dbg) (fun a => map (a ++ ·) (seq [p])) s)
  unfold P.bind
  cases hps' : trivias dbg s <;> simp only [hps'] at h ⊢ <;> try exact h
  rename_i a s1
  have hl := h.2.1.length
  have h2 := hp s1 (by omega) (I.C_of_suf h.2.1 hc)
  have e : seq [p] s1 = p s1 := by
    show bind p (fun a => map (a ++ ·) (pure [])) s1 = p s1
    unfold P.bind P.map P.pure P.bind
    cases p s1 <;> simp
  rw [map_append_eq, e]
  exact SatOut.after h.1 h.2.1 h2 .inl

theorem sat_optG {p : G} {st' : Bool} (hp : Sat I dbg st n p) (hst : st' = false := by rfl) : Sat I dbg st' n (optG p) := by
  subst hst
  intro s hs hc
  have h := hp s hs hc
  unfold optG P.map P.bind P.opt P.pure
  cases hps' : p s <;> simp only [hps'] at h ⊢ <;> try exact h
  · exact ⟨h.1, h.2.1, by simp⟩
  · exact ⟨I.F_drop h.2 h.1, Suf.refl s, by simp⟩

theorem sat_alt2 {p q : G} (hp : Sat I dbg st n p) (hq : Sat I dbg st n q) : Sat I dbg st n (alt2 p q) := by
  intro s hs hc
  have h := hp s hs hc
  unfold P.alt2
  cases hps' : p s <;> simp only [hps'] at h ⊢ <;> try exact h
  rename_i e s'
  have h2 := hq (s'.resetTo s) hs hc
  have := SatOut.after (st := st) (I.F_drop h.2 h.1) (Suf.refl s) h2 .inl
  cases hqs : q (s'.resetTo s) <;> simpa [hqs, Out.prep] using this

theorem sat_alt : ∀ {ps : List G}, (∀ p ∈ ps, Sat I dbg st n p) → Sat I dbg st n (alt ps)
  | [], _ => sat_fail
  | [p], h => h p (by simp)
  | p :: q :: ps, h => sat_alt2 (h p (by simp)) (sat_alt fun r hr => h r (by simp_all))

theorem sat_alt_two {p q : G} (hp : Sat I dbg st n p) (hq : Sat I dbg st n q) : Sat I dbg st n (alt [p, q]) :=
  sat_alt2 hp hq

theorem sat_alt_three {p q r : G} (hp : Sat I dbg st n p) (hq : Sat I dbg st n q) (hr : Sat I dbg st n r) :
    Sat I dbg st n (alt [p, q, r]) := sat_alt2 hp (sat_alt2 hq hr)

theorem sat_context {p : G} {m : Msg} (hp : Sat I dbg st n p) : Sat I dbg st n (context m p) := by
  intro s hs hc
  have h := hp s hs hc
  unfold P.context
  cases hps' : p s <;> simp only [hps'] at h ⊢ <;> try exact h
  exact ⟨I.F_ctx h.2 h.1, h.2⟩

theorem sat_node {p : G} {k : Kind} (hp : Sat I dbg st n p) (hk : k ≠ .VAL_TYPE := by simp) :
    Sat I dbg st n (nodeP k p) := by
  intro s hs hc
  have h := hp s hs hc
  unfold nodeP P.map P.bind P.pure
  cases hps' : p s <;> simp only [hps'] at h ⊢ <;> try exact h
  exact ⟨I.R_wrap (a := []) hk h.1, h.2⟩

theorem sat_must {p : G} {st' : Bool} (hp : Sat I dbg st n p) (hst : st' = false := by rfl) :
    Sat I dbg st' n (must p) := by
  subst hst
  intro s hs hc
  have h := hp s hs hc
  unfold must
  cases hps' : p s <;> simp only [hps'] at h ⊢ <;> try exact h
  · exact ⟨h.1, h.2.1, by simp⟩
  · exact ⟨I.F_record h.2 h.1, Suf.refl s, by simp⟩

/-- Look ahead, then choose. -/
theorem sat_peekBind {q : P α} {Q : α → Text → Prop} {f : α → G} (hq : Lex dbg n Q q)
    (hf : ∀ a, Sat I dbg st n (f a)) : Sat I dbg st n (bind (peek q) f) := by
  intro s hs hc
  have h := lex_peek hq s hs
  unfold P.bind
  cases hps' : peek q s <;> simp only [hps', LexOut] at h ⊢
  · obtain ⟨c, ha, rfl⟩ := h
    rw [ha.eq_of_nil]
    exact hf _ s hs hc
  · obtain ⟨c, ha, he⟩ := h
    exact ⟨I.F_lex ha he, ha.suf⟩
  · exact h

theorem sat_ite {c : Prop} [Decidable c] {p q : G} (hp : Sat I dbg st n p) (hq : Sat I dbg st n q) :
    Sat I dbg st n (if c then p else q) := by
  split
  · exact hp
  · exact hq

theorem repeatF_sat {p : G} (hp : Sat I dbg true n p) : ∀ fuel s, s.rest.length ≤ n → s.rest.length < fuel →
    I.C s.rest → SatOut I dbg false s (map List.flatten (repeatF dbg p fuel) s) := by
  intro fuel
  induction fuel with
  | zero => intro s _ h; omega
  | succ fuel ih =>
    intro s hs hf hc
    have h := hp s hs hc
    unfold P.map P.bind P.repeatF
    cases hps : p s <;> simp only [hps] at h ⊢ <;> try exact h
    · rename_i a s'
      have hl := h.2.2 rfl
      rw [if_neg (by omega)]
      have h2 := ih s' (by omega) (by omega) (I.C_of_suf h.2.1 hc)
      have := SatOut.after (st := false) h.1 h.2.1 h2 (by simp)
      unfold P.map P.bind P.pure at this
      unfold P.map P.bind P.pure
      cases hr : repeatF dbg p fuel s' <;> simpa [hr, Out.prep] using this
    · exact ⟨I.F_drop h.2 h.1, Suf.refl s, by simp⟩

theorem sat_many {p : G} {st' : Bool} (hp : Sat I dbg true n p) (hst : st' = false := by rfl) :
    Sat I dbg st' n (many dbg p) := by
  subst hst
  intro s hs hc
  exact repeatF_sat hp (s.rest.length + 1) s hs (by omega) hc

theorem sat_many1 {p : G} (hp : Sat I dbg true n p) : Sat I dbg st n (many1 dbg p) := by
  intro s hs hc
  have h := hp s hs hc
  unfold many1 P.repeat1
  rw [show P.map List.flatten _ s = _ from rfl]
  unfold P.map P.bind
  dsimp only
  cases hps : p s <;> simp only [hps] at h ⊢ <;> try exact h
  · rename_i a s'
    have hl := h.2.2 rfl
    have h2 := repeatF_sat hp (s'.rest.length + 1) s' (by omega) (by omega) (I.C_of_suf h.2.1 hc)
    have := SatOut.after (st := st) h.1 h.2.1 h2 fun _ => .inr hl
    unfold P.map P.bind P.pure at this
    unfold P.repeat0 P.pure
    cases hr : repeatF dbg p (s'.rest.length + 1) s' <;> simpa [hr, Out.prep] using this
  · exact ⟨I.F_move h.2 (Suf.refl s) h.1 rfl, Suf.refl s⟩

/-! ### Error recovery -/

theorem lex_unexpectedToken :
    Lex dbg n (fun gs c => Toks AnyKind gs c ∧ gs = [.tok .ERROR c] ∧ c ≠ []) unexpectedToken :=
  lex_context _ (lex_errorToken false)

theorem unexpectedToken_fail {s s' : St} {e : Err} (h : unexpectedToken s = .fail e s')
    (hp : AtParen s'.rest) : s' = s ∨ BadQuote s.rest := by
  unfold unexpectedToken P.context at h
  cases he : errorToken false s <;> simp only [he] at h <;> cases h
  exact errorToken_fail he hp

theorem St.resetTo_errs (s t : St) : (s.resetTo t).errs = s.errs := rfl
theorem St.resetTo_rest (s t : St) : (s.resetTo t).rest = t.rest := rfl

/-- One round of retrying. -/
theorem retryRound_sat {p : G} {allowed : List Text} {again : List Green → G} {acc : List Green} {s0 : St}
    (hp : Sat I dbg st n p) (s : St) (hs : s.rest.length ≤ n) (hc : I.C s.rest)
    (h0 : I.R s0 acc s) (hsuf : Suf s0 s)
    (hagain : ∀ acc' s', I.R s0 acc' s' → Suf s0 s' → s'.rest.length < s.rest.length → I.C s'.rest →
      SatOut I dbg st s0 (again acc' s')) :
    SatOut I dbg st s0 (retryRound dbg p allowed acc again s) := by
  unfold retryRound
  have ht := sat_trivias (I := I) (dbg := dbg) s hs hc
  cases htr : trivias dbg s <;> simp only [htr, SatOut] at ht ⊢
  rotate_left
  · exact ⟨I.R_F hsuf ht.2 h0 ht.1, hsuf.trans ht.2⟩
  · exact ⟨ht.1, hsuf.hasBC ht.2⟩
  rename_i tr s1
  obtain ⟨hR1, hsuf1, -⟩ := ht
  have hl1 := hsuf1.length
  have hc1 := I.C_of_suf hsuf1 hc
  have h01 := I.R_trans hsuf hsuf1 h0 hR1
  have hsuf01 := hsuf.trans hsuf1
  have h := hp s1 (by omega) hc1
  cases hps : p s1 <;> simp only [hps, SatOut] at h ⊢
  · refine ⟨I.R_trans hsuf01 h.2.1 h01 h.1, hsuf01.trans h.2.1, fun hst => ?_⟩
    have := h.2.2 hst
    have := hsuf01.length
    omega
  rotate_left
  · exact ⟨h.1, hsuf01.hasBC h.2⟩
  rename_i e s2
  obtain ⟨hF, hsuf2⟩ := h
  -- failing the whole thing, with the position reset to `s`
  have hfail : ∀ sx : St, sx.errs = s2.errs →
      SatOut I dbg st s0 (.fail (e.stamp (sx.resetTo s)) (sx.resetTo s)) := by
    intro sx hx
    have f1 : I.F s e s2 := I.R_F hsuf1 hsuf2 hR1 hF
    have f2 : I.F s e (sx.resetTo s) := I.F_move (hsuf1.trans hsuf2) (Suf.refl s) f1 hx
    exact ⟨I.R_F hsuf (Suf.refl s) h0 (I.F_stamp (Suf.refl s) f2), hsuf⟩
  have hu := lex_unexpectedToken (dbg := dbg) (s2.resetTo s1) (Nat.le_refl _)
  cases hut : unexpectedToken (s2.resetTo s1) <;> simp only [hut, LexOut] at hu ⊢
  · rename_i et s4
    obtain ⟨c, ha, ht, _, hne⟩ := hu
    have hl := ha.length
    simp only [St.resetTo_rest] at hl
    have := List.length_pos_iff.mpr hne
    rw [if_neg (by simp only [St.resetTo_rest]; omega)]
    have hR4 : I.R s1 et (s4.record e) := I.R_err (c0 := []) hc1 hsuf2 hF ha ht hne (.inl rfl)
    have hsuf4 : Suf s1 (s4.record e) := ⟨c, ha.rest, ha.pos⟩
    exact hagain _ _ (I.R_trans hsuf01 hsuf4 h01 hR4) (hsuf01.trans hsuf4)
      (by show s4.rest.length < _; omega) (I.C_of_suf hsuf4 hc1)
  · rename_i e4 s4
    obtain ⟨c0, ha, he⟩ := hu
    have het := lex_errorTerm (dbg := dbg) allowed s4 (Nat.le_refl _)
    cases htm : errorTerm dbg allowed s4 <;> simp only [htm, LexOut] at het ⊢
    · rename_i ets s6
      obtain ⟨d, ha6, ht, hpre⟩ := het
      by_cases hne : s6.rest.length = (s2.resetTo s1).rest.length
      · rw [if_pos hne]; exact hfail s6 (by rw [ha6.errs, ha.errs]; rfl)
      · rw [if_neg hne]
        have hd : d ≠ [] := by rintro rfl; simp at hpre
        have hpar : AtParen s4.rest := by
          rw [ha6.rest]; obtain ⟨x, hx⟩ := hpre; exact ⟨x ++ s6.rest, by rw [← hx]; simp⟩
        have hor : c0 = [] ∨ BadQuote s1.rest := by
          rcases unexpectedToken_fail hut hpar with h | h
          · left
            subst h
            have := ha.length
            exact List.eq_nil_of_length_eq_zero (by omega)
          · exact .inr h
        have hR6 : I.R s1 ets (s6.record e) := I.R_err hc1 hsuf2 hF (ha.trans ha6) ht hd hor
        have hsuf6 : Suf s1 (s6.record e) := ⟨c0 ++ d, (ha.trans ha6).rest, (ha.trans ha6).pos⟩
        refine ⟨I.R_trans hsuf01 hsuf6 h01 hR6, hsuf01.trans hsuf6, fun _ => ?_⟩
        have hl := (ha.trans ha6).length
        have hd' := List.length_pos_iff.mpr hd
        have := hsuf01.length
        simp only [St.resetTo_rest, List.length_append] at hl
        show s6.rest.length < _
        omega
    · rename_i e6 s6
      obtain ⟨d, ha6, _⟩ := het
      exact hfail s6 (by rw [ha6.errs, ha.errs]; rfl)
    · refine ⟨het.1, (hsuf01.trans ?_).hasBC het.2⟩
      exact ⟨c0, ha.rest, ha.pos⟩
  · exact ⟨hu.1, hsuf01.hasBC hu.2⟩

theorem sat_retryOnce {p : G} {allowed : List Text} (hp : Sat I dbg st n p) :
    Sat I dbg st n (retryOnce dbg p allowed) := by
  intro s hs hc
  refine retryRound_sat hp s hs hc (I.R_nil s) (Suf.refl s) fun acc' s' h1 h2 h3 _ => ?_
  exact ⟨h1, h2, fun _ => h3⟩

theorem retryF_sat {p : G} {allowed : List Text} (hp : Sat I dbg st n p) (s0 : St) :
    ∀ fuel acc s, s.rest.length ≤ n → s.rest.length < fuel → I.C s.rest → I.R s0 acc s → Suf s0 s →
      SatOut I dbg st s0 (retryF dbg p allowed fuel acc s) := by
  intro fuel
  induction fuel with
  | zero => intro acc s _ h; omega
  | succ fuel ih =>
    intro acc s hs hf hc h0 hsuf
    exact retryRound_sat hp s hs hc h0 hsuf fun acc' s' h1 h2 h3 h4 => ih acc' s' (by omega) (by omega) h4 h1 h2

theorem sat_retry {p : G} {allowed : List Text} (hp : Sat I dbg st n p) :
    Sat I dbg st n (retry dbg p allowed) :=
  fun s hs hc => retryF_sat hp s (s.rest.length + 1) [] s hs (by omega) hc (I.R_nil s) (Suf.refl s)

theorem rParenF_sat (s0 : St) : ∀ fuel acc s, s.rest.length < fuel → I.C s.rest → I.R s0 acc s → Suf s0 s →
      SatOut I dbg false s0 (rParenF dbg s0 fuel acc s) := by
  intro fuel
  induction fuel with
  | zero => intro acc s h; omega
  | succ fuel ih =>
    intro acc s hf hc h0 hsuf
    unfold rParenF
    have ht := sat_trivias (I := I) (dbg := dbg) s (Nat.le_refl _) hc
    cases htr : trivias dbg s <;> simp only [htr, SatOut] at ht ⊢
    rotate_left
    · exact ⟨I.R_F hsuf ht.2 h0 ht.1, hsuf.trans ht.2⟩
    · exact ⟨ht.1, hsuf.hasBC ht.2⟩
    rename_i tr s1
    obtain ⟨hR1, hsuf1, -⟩ := ht
    have hl1 := hsuf1.length
    have hc1 := I.C_of_suf hsuf1 hc
    have h01 := I.R_trans hsuf hsuf1 h0 hR1
    have hsuf01 := hsuf.trans hsuf1
    have hlp := lex_context (dbg := dbg) (.expChar ')') (lex_lit [')']) s1 (Nat.le_refl _)
    cases hlt : context (.expChar ')') (lit [')']) s1 <;> simp only [hlt, LexOut] at hlp ⊢
    · obtain ⟨c, ha, _, rfl⟩ := hlp
      have := I.R_tok (k := .R_PAREN) (by simp) (by rfl) ha
      exact ⟨I.R_trans hsuf01 ha.suf h01 this, hsuf01.trans ha.suf, by simp⟩
    · rename_i e s2
      obtain ⟨c, ha, he⟩ := hlp
      have hF := I.F_lex ha he
      have hu := lex_unexpectedToken (dbg := dbg) (s2.resetTo s1) (Nat.le_refl _)
      cases hut : unexpectedToken (s2.resetTo s1) <;> simp only [hut, LexOut] at hu ⊢
      · rename_i et s4
        obtain ⟨c4, ha4, ht4, _, hne⟩ := hu
        have hl := ha4.length
        simp only [St.resetTo_rest] at hl
        have := List.length_pos_iff.mpr hne
        rw [if_neg (by simp only [St.resetTo_rest]; omega)]
        have hR4 : I.R s1 et (s4.record e) := I.R_err (c0 := []) hc1 ha.suf hF ha4 ht4 hne (.inl rfl)
        have hsuf4 : Suf s1 (s4.record e) := ⟨c4, ha4.rest, ha4.pos⟩
        exact ih _ _ (by show s4.rest.length < _; omega) (I.C_of_suf hsuf4 hc1)
          (I.R_trans hsuf01 hsuf4 h01 hR4) (hsuf01.trans hsuf4)
      · rename_i e4 s4
        obtain ⟨c4, ha4, _⟩ := hu
        have hsuf4 : Suf s1 s4 := ⟨c4, ha4.rest, ha4.pos⟩
        have f : I.F s0 e s4 :=
          I.F_move (hsuf01.trans ha.suf) (hsuf01.trans hsuf4) (I.R_F hsuf01 ha.suf h01 hF) ha4.errs
        exact ⟨I.F_record (hsuf01.trans hsuf4) f, Suf.refl s0, by simp⟩
      · exact ⟨hu.1, hsuf01.hasBC hu.2⟩
    · exact ⟨hlp.1, hsuf01.hasBC hlp.2⟩

theorem sat_rParen {st' : Bool} (hst : st' = false := by rfl) : Sat I dbg st' n (rParen dbg) := by
  subst hst
  exact fun s _ hc => rParenF_sat s (s.rest.length + 1) [] s (by omega) hc (I.R_nil s) (Suf.refl s)

/-! ### `repeat_till` -/

theorem repeatTillF_sat {p : G} {g : P β} {v : β → List Green} (hp : Sat I dbg true n p)
    (hg : Sat I dbg false n (map v g)) : ∀ fuel s, s.rest.length ≤ n → s.rest.length < fuel → I.C s.rest →
      SatOut I dbg false s (map (fun r => r.1.flatten ++ v r.2) (repeatTillF dbg p g fuel) s) := by
  intro fuel
  induction fuel with
  | zero => intro s _ h; omega
  | succ fuel ih =>
    intro s hs hf hc
    have h := hg s hs hc
    unfold P.map P.bind P.pure at h
    unfold P.map P.bind P.repeatTillF P.pure
    cases hgs : g s <;> simp only [hgs] at h ⊢ <;> try exact h
    rename_i e s'
    have h2 := hp (s'.resetTo s) hs hc
    cases hps : p (s'.resetTo s) <;> simp only [hps] at h2 ⊢
    · rename_i a s''
      have hl := h2.2.2 rfl
      simp only [St.resetTo_rest] at hl
      rw [if_neg (by omega)]
      have hR := I.R_trans (s1 := s'.resetTo s) (Suf.refl s) h2.2.1 (I.F_drop h.2 h.1) h2.1
      have hsuf : Suf s s'' := h2.2.1
      have h3 := ih s'' (by omega) (by omega) (I.C_of_suf hsuf hc)
      have := SatOut.after (st := false) hR hsuf h3 (by simp)
      unfold P.map P.bind P.pure at this
      unfold P.map P.bind P.pure
      cases hr : repeatTillF dbg p g fuel s'' <;> simpa [hr, Out.prep] using this
    · exact ⟨I.R_F (s1 := s'.resetTo s) (Suf.refl s) h2.2 (I.F_drop h.2 h.1) h2.1, h2.2⟩
    · exact h2
    · exact h2

end Verif
