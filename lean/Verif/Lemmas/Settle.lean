import Verif.Lemmas.DeriveGrammar
import Verif.Lemmas.AcceptLook
import Verif.Spec.Program
/-!
Helper lemmas: runs without errors, seen from inside.  What the combinators did when no error is recorded at their end, and
where white space and comments have been read already.
-/
namespace Verif.Reg
open P Spec

variable {dbg : Bool} {p q : G}

/-- White space and comments have been read. -/
def Settled (dbg : Bool) (s : St) : Prop := trivias dbg s = .ok [] s

/-- No identifier follows, whatever white space and comments there are. -/
def NoId (dbg : Bool) (s : St) : Prop := ∀ b s', tp dbg ident s ≠ .ok b s'

theorem reset_clean {s s1 : St} (h : s.errs = []) (h1 : s1.errs = []) : s1.resetTo s = s := by
  unfold St.resetTo; rw [h1, ← h]

theorem settled {s s1 : St} {tr : List Green} (h : trivias dbg s = .ok tr s1) : Settled dbg s1 := by
  obtain ⟨l, h1, rfl⟩ := map_ok h
  have hl : ∀ n, Lex dbg n (fun _ _ => True) (alt [ws, lineComment, blockComment dbg]) := fun n => by
    refine lex_alt ?_
    simp only [List.mem_cons, List.not_mem_nil, or_false, forall_eq_or_imp, forall_eq]
    exact ⟨lex_ws.mono fun _ _ _ => trivial, lex_lineComment.mono fun _ _ _ => trivial, lex_blockComment.mono fun _ _ _ => trivial⟩
  obtain ⟨e, s2, h2⟩ := repeatF_stop (hl s.rest.length) _ _ _ _ (Nat.le_refl _) h1
  have ha := hl s1.rest.length s1 (Nat.le_refl _)
  simp only [h2, LexOut] at ha
  obtain ⟨c, ha, _⟩ := ha
  unfold Settled trivias P.map P.bind repeat0
  unfold repeatF
  simp only [h2, ha.resetTo]
  rfl

theorem tp_ok {s a s'} (h : tp dbg p s = .ok a s') : ∃ tr s1 o, trivias dbg s = .ok tr s1 ∧ p s1 = .ok o s' ∧ a = tr ++ o := by
  obtain ⟨tr, s1, o, h1, h2, rfl⟩ := seq_cons_ok h
  rw [seq_one] at h2
  exact ⟨tr, s1, o, h1, h2, rfl⟩

theorem tp_run {s s1 s' : St} {tr o : List Green} (h1 : trivias dbg s = .ok tr s1) (h2 : p s1 = .ok o s') :
    tp dbg p s = .ok (tr ++ o) s' := by
  unfold tp seq
  rw [seq_one]
  unfold P.map P.bind
  simp only [h1, h2]
  rfl

theorem settled_tp {s a s'} (hs : Settled dbg s) (h : tp dbg p s = .ok a s') : p s = .ok a s' := by
  obtain ⟨tr, s1, o, h1, h2, rfl⟩ := tp_ok h
  rw [hs] at h1; cases h1; exact h2

theorem round_ok {al : List Text} {acc : List Green} {again : List Green → G} (ha : ∀ acc, Mono (again acc)) {s a s'}
    (h : retryRound dbg p al acc again s = .ok a s') (he : s'.errs = []) :
    ∃ tr s1 o, trivias dbg s = .ok tr s1 ∧ p s1 = .ok o s' ∧ a = acc ++ tr ++ o := by
  unfold retryRound at h
  cases htr : trivias dbg s <;> simp only [htr] at h <;> try cases h
  rename_i tr s1
  split at h
  · rename_i o s2 ho
    cases h
    exact ⟨_, _, _, rfl, ho, rfl⟩
  · cases h
  · cases h
  · split at h
    · split at h
      · cases h
      · exact absurd ((ha _).ok h he) (record_errs _ _)
    · cases h
    · cases h
    · split at h
      · split at h
        · cases h
        · cases h
          exact absurd he (record_errs _ _)
      · cases h
      · cases h
      · cases h

theorem retryOnce_ok {al : List Text} {s a s'} (h : retryOnce dbg p al s = .ok a s') (he : s'.errs = []) :
    ∃ tr s1 o, trivias dbg s = .ok tr s1 ∧ p s1 = .ok o s' ∧ a = tr ++ o := by
  obtain ⟨tr, s1, o, h1, h2, h3⟩ := round_ok (fun acc => .of (fun s a s' hp he => by cases hp; exact he) (fun s e s' hp => by cases hp)) h he
  exact ⟨tr, s1, o, h1, h2, by simpa using h3⟩

theorem retry_ok {al : List Text} (hp : Mono p) {s a s'} (h : retry dbg p al s = .ok a s') (he : s'.errs = []) :
    ∃ tr s1 o, trivias dbg s = .ok tr s1 ∧ p s1 = .ok o s' ∧ a = tr ++ o := by
  unfold retry retryF at h
  obtain ⟨tr, s1, o, h1, h2, h3⟩ := round_ok (fun acc => mono_retryF hp _ acc) h he
  exact ⟨tr, s1, o, h1, h2, by simpa using h3⟩

theorem must_ok {s a s'} (h : must p s = .ok a s') (he : s'.errs = []) : p s = .ok a s' := by
  unfold must at h
  cases hps : p s <;> simp only [hps] at h <;> cases h
  · rfl
  · exact absurd he (record_errs _ _)

theorem optG_ok {s a s'} (h : optG p s = .ok a s') : p s = .ok a s' ∨ a = [] ∧ ∃ e s1, p s = .fail e s1 ∧ s' = s1.resetTo s := by
  obtain ⟨x, h1, rfl⟩ := map_ok h
  unfold P.opt at h1
  cases hps : p s <;> simp only [hps] at h1 <;> cases h1
  · exact .inl rfl
  · exact .inr ⟨rfl, _, _, rfl, rfl⟩

theorem alt_ok {ps : List G} {s a s'} (h : alt (p :: q :: ps) s = .ok a s') :
    p s = .ok a s' ∨ ∃ e s1, p s = .fail e s1 ∧ alt (q :: ps) (s1.resetTo s) = .ok a s' := by
  change alt2 p (alt (q :: ps)) s = _ at h
  unfold P.alt2 at h
  cases hps : p s <;> simp only [hps] at h <;> try cases h
  · exact .inl rfl
  · exact .inr ⟨_, _, rfl, h⟩

theorem node_ok {k : Kind} {s a s'} (h : nodeP k p s = .ok a s') : ∃ cs, p s = .ok cs s' ∧ a = [.node k cs] := map_ok h

theorem seq_last {ps : List G} : ∀ {s a s'}, seq (ps ++ [q]) s = .ok a s' → ∃ b s1 c, seq ps s = .ok b s1 ∧ q s1 = .ok c s' ∧ a = b ++ c := by
  induction ps with
  | nil =>
    intro s a s' h
    rw [List.nil_append, seq_one] at h
    exact ⟨[], s, a, rfl, h, rfl⟩
  | cons p ps ih =>
    intro s a s' h
    obtain ⟨b, s1, c, h1, h2, rfl⟩ := seq_cons_ok h
    obtain ⟨b2, s2, c2, h3, h4, rfl⟩ := ih h2
    refine ⟨b ++ b2, s2, c2, ?_, h4, by simp⟩
    unfold seq P.map P.bind
    simp only [h1, h3]
    rfl

theorem word_ok {s a s'} (h : word s = .ok a s') : ∃ c r, s.rest = c :: r ∧ isLower c = true := by
  unfold word P.take P.bind oneOf at h
  cases h1 : verify isLower any s <;> simp only [h1] at h <;> try cases h
  rename_i c s1
  obtain ⟨h2, h3⟩ := verify_ok h1
  unfold P.any at h2
  cases hr : s.rest <;> simp only [hr] at h2 <;> cases h2
  exact ⟨_, _, rfl, h3⟩

theorem keyword_head {kw : Text} {s a s'} (h : keyword kw s = .ok a s') : ∃ c r, s.rest = c :: r ∧ isLower c = true := by
  obtain ⟨t, h1, _⟩ := map_ok (context_ok h)
  exact word_ok (verify_ok h1).1

theorem instrName_head {s a s'} (h : instrName s = .ok a s') : ∃ c r, s.rest = c :: r ∧ isLower c = true := by
  obtain ⟨t, h1, _⟩ := map_ok h
  exact word_ok (context_ok h1)

theorem lParen_ok {s a s'} (h : lParen s = .ok a s') : a = [.tok .L_PAREN ['(']] ∧ ∃ r, s.rest = '(' :: r := by
  obtain ⟨t, h1, rfl⟩ := map_ok (context_ok h)
  unfold P.lit at h1
  split at h1
  · rename_i hp
    cases h1
    obtain ⟨r, hr⟩ := List.isPrefixOf_iff_prefix.mp hp
    exact ⟨rfl, r, hr.symm⟩
  · cases h1

theorem blank_triv {s s1 : St} {tr : List Green} (h : trivias dbg s = .ok tr s1) : stripL tr = [] ∧ s1.errs = s.errs := by
  have t := trivias_yield h
  refine ⟨stripL_blank fun g hg => ?_, t.1⟩
  have := List.filter_eq_nil_iff.mp t.2.1 g hg
  simpa using this

/-- After an optional identifier, either there was one or none follows. -/
theorem optIdent {s a s'} (h : optG (tp dbg ident) s = .ok a s') :
    (∃ tr t, stripL tr = [] ∧ a = tr ++ [.tok .IDENT t]) ∨ a = [] ∧ s' = s ∧ NoId dbg s := by
  rcases optG_ok h with h | ⟨rfl, e, s1, h1, rfl⟩
  · obtain ⟨tr, s1, o, h1, h2, rfl⟩ := tp_ok h
    obtain ⟨t, _, rfl⟩ := map_ok h2
    exact .inl ⟨tr, t, (blank_triv h1).1, rfl⟩
  · have hl : Lex dbg s.rest.length (fun _ _ => True) (tp dbg ident) := by
      unfold tp seq
      rw [seq_one]
      exact lex_bind lex_trivias fun _ _ _ => lex_map (lexTok_ident.mono fun _ _ _ => trivial) fun _ _ _ => trivial
    have := hl s (Nat.le_refl _)
    simp only [h1, LexOut] at this
    obtain ⟨c, ha, _⟩ := this
    refine .inr ⟨rfl, ha.resetTo, fun b s' h2 => ?_⟩
    rw [h1] at h2; cases h2

end Verif.Reg
