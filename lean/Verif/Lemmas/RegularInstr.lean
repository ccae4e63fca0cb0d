import Verif.Lemmas.RegularRun
/-!
Helper lemmas: what `Spec.Regular` requires beyond the productions holds of the nodes a run without errors builds
(instructions).
-/
namespace Verif.Reg
open P Spec

variable {dbg b : Bool} {p q ins : G}

/-! ### Lists -/

theorem adj_nil : Adj [] := fun a x y b h => by cases a <;> cases h

theorem adj_cons {x : Green} {l : List Green} (h1 : ∀ y r, l = y :: r → Unlabelled x → ¬ HeadId y) (h2 : Adj l) : Adj (x :: l) := by
  intro a x' y b h
  cases a with
  | nil => cases h; exact h1 y b rfl
  | cons z a => cases h; exact h2 a x' y b rfl

theorem adj_snoc {y : Green} {l : List Green} (h1 : Adj l) (h2 : ¬ HeadId y) : Adj (l ++ [y]) := by
  induction l with
  | nil => exact adj_cons (fun _ _ h => by cases h) adj_nil
  | cons z l ih =>
    refine adj_cons (fun x r h hu => ?_) (ih fun a x y b h => h1 (z :: a) x y b (by rw [h]; rfl))
    cases l with
    | nil => cases h; exact h2
    | cons x' l => cases h; exact h1 [] z x l rfl hu

theorem strip_tok {k : Kind} {t : Text} : strip (.tok k t) = .tok k t := by simp [strip]
theorem strip_node {k : Kind} {cs : List Green} : strip (.node k cs) = .node k (stripL cs) := by simp [strip]
theorem stripL_nil : stripL [] = [] := by simp [stripL]
theorem stripL_one {g : Green} (h : isBlank g = false) : stripL [g] = [strip g] := by simp [stripL, h]
theorem stripL_node {k : Kind} {cs l : List Green} : stripL (.node k cs :: l) = .node k (stripL cs) :: stripL l := by
  simp [stripL, strip, isBlank]
theorem stripL_tok {k : Kind} {t : Text} {l : List Green} (h : isBlank (.tok k t) = false) : stripL (.tok k t :: l) = .tok k t :: stripL l := by
  simp [stripL, strip, h]

theorem stripL_signif (l : List Green) : stripL l = (signif l).map strip := by
  induction l with
  | nil => rfl
  | cons g l ih =>
    simp only [stripL, signif, List.filter_cons]
    cases h : isBlank g <;> simp [ih, signif]

theorem headId_tok {k : Kind} {t : Text} : HeadId (.tok k t) ↔ k = .IDENT := by
  constructor
  · rintro ⟨t', r, h⟩; simp only [Green.toks] at h; cases h; rfl
  · rintro rfl; exact ⟨t, [], rfl⟩

theorem not_headId_open {k k' : Kind} {t : Text} {cs : List Green} (hk : k' ≠ .IDENT) : ¬ HeadId (.node k (.tok k' t :: cs)) := by
  rintro ⟨t', r, h⟩
  simp only [Green.toks, Green.toksL] at h
  cases h; exact hk rfl

theorem unlabelled_kind {g : Green} (h : Unlabelled g) : g.kind = .BLOCK_BLOCK ∨ g.kind = .BLOCK_LOOP ∨ g.kind = .OPERAND ∨ g.kind = .OFFSET := by
  cases h with
  | block hk _ => rcases hk with rfl | rfl <;> simp [Green.kind]
  | inside hk _ => rcases hk with rfl | rfl <;> simp [Green.kind]

/-! ### Terms of productions -/

/-- The kind of what a term stands for. -/
def termKind : Term → Kind
  | .tok k | .node k => k
  | .word _ => .KEYWORD

/-- The terms of a part. -/
def itemTerms : Item → List Term
  | .one ts | .opt ts | .many ts => ts

theorem match_terms {is : List Item} {l : List Green} (h : Match is l) : ∀ g ∈ l, ∃ i ∈ is, ∃ t ∈ itemTerms i, t.is g := by
  induction h with
  | nil => simp
  | one ht hg _ ih | opt ht hg _ ih =>
    intro g hg'
    rcases List.mem_cons.mp hg' with rfl | hg'
    · exact ⟨_, .head _, _, ht, hg⟩
    · obtain ⟨i, hi, h⟩ := ih g hg'
      exact ⟨i, .tail _ hi, h⟩
  | skip _ ih | stop _ ih =>
    intro g hg'
    obtain ⟨i, hi, h⟩ := ih g hg'
    exact ⟨i, .tail _ hi, h⟩
  | more ht hg _ ih =>
    intro g hg'
    rcases List.mem_cons.mp hg' with rfl | hg'
    · exact ⟨_, .head _, _, ht, hg⟩
    · exact ih g hg'

theorem is_kind {t : Term} {g : Green} (h : t.is g) : g.kind = termKind t := by
  cases t <;> cases g <;> simp only [Term.is] at h <;> simp [Green.kind, termKind, h]

theorem strip_kind' {g : Green} : (strip g).kind = g.kind := by cases g <;> simp [strip, Green.kind]

/-- The kinds of the significant elements of a yield. -/
theorem yield_kinds {A : List (List Item)} {a : List Green} (h : Yield A a) {K : List Kind}
    (hK : (A.all fun p => p.all fun i => (itemTerms i).all fun t => K.contains (termKind t)) = true) :
    ∀ g ∈ stripL a, g.kind ∈ K := by
  intro g hg
  rw [stripL_signif] at hg
  obtain ⟨g', hg', rfl⟩ := List.mem_map.mp hg
  obtain ⟨p, hp, hm⟩ := h.prod
  obtain ⟨i, hi, t, ht, his⟩ := match_terms hm g' hg'
  rw [strip_kind', is_kind his]
  exact List.contains_iff_mem.mp (List.all_eq_true.mp (List.all_eq_true.mp (List.all_eq_true.mp hK p hp) i hi) t ht)

theorem snd_kinds {st : Bool} {A : List (List Item)} (h : Snd st p A) {s a s'} (hp : p s = .ok a s') (he : s'.errs = []) {K : List Kind}
    (hK : (A.all fun p => p.all fun i => (itemTerms i).all fun t => K.contains (termKind t)) = true) :
    ∀ g ∈ stripL a, g.kind ∈ K := yield_kinds (h.ok hp he).2.1 hK

/-! ### Type uses -/

theorem keyword_ok {kw : Text} {s a s'} (h : keyword kw s = .ok a s') : a = [.tok .KEYWORD kw] ∧ word s = .ok kw s' := by
  obtain ⟨t, h1, rfl⟩ := map_ok (context_ok h)
  obtain ⟨h2, h3⟩ := verify_ok h1
  simp only [beq_iff_eq] at h3
  subst h3
  exact ⟨rfl, h2⟩

/-- After an opening parenthesis there is only one word. -/
theorem open_word {w kw : Text} {s s1 : St} (h : (bind (lit ['(']) fun _ => bind (trivias dbg) fun _ => word) s = .ok w s1)
    {ps : List G} {a s'} (hp : seq (lParen :: tp dbg (keyword kw) :: ps) s = .ok a s') : w = kw := by
  obtain ⟨x, s2, y, h1, h2, rfl⟩ := seq_cons_ok hp
  obtain ⟨x', s3, y', h3, h4, rfl⟩ := seq_cons_ok h2
  obtain ⟨tr, s4, o, h5, h6, rfl⟩ := tp_ok h3
  obtain ⟨t, h7, rfl⟩ := map_ok (context_ok h1)
  obtain ⟨t', s5, h8, h9⟩ := bind_ok h
  obtain ⟨tr', s6, h10, h11⟩ := bind_ok h9
  rw [h7] at h8; cases h8
  rw [h5] at h10; cases h10
  rw [(keyword_ok h6).2] at h11; cases h11
  rfl

theorem mono_alt_one (h : Mono p) : Mono (alt [p]) := h

theorem alt2_clean {ps : List G} (h1 : Mono p) (h2 : Mono (alt (q :: ps))) {s a s'} (h : alt (p :: q :: ps) s = .ok a s') (he : s'.errs = []) :
    p s = .ok a s' ∨ (∃ e s1, p s = .fail e s1) ∧ alt (q :: ps) s = .ok a s' := by
  rcases alt_ok h with h | ⟨e, s1, h3, h4⟩
  · exact .inl h
  · have e1 : s1.errs = [] := show (s1.resetTo s).errs = [] from h2.ok h4 he
    rw [reset_clean (h1.fail h3 e1) e1] at h4
    exact .inr ⟨⟨_, _, h3⟩, h4⟩

/-- A node that begins with an opening parenthesis. -/
theorem openSeq {k : Kind} {ps : List G} {s a s'} (h : nodeP k (seq (lParen :: ps)) s = .ok a s') :
    ∃ cs, a = [.node k (.tok .L_PAREN ['('] :: cs)] ∧ ∃ r, s.rest = '(' :: r := by
  obtain ⟨cs, h1, rfl⟩ := node_ok h
  obtain ⟨x, s2, y, h2, h3, rfl⟩ := seq_cons_ok h1
  obtain ⟨rfl, hr⟩ := lParen_ok h2
  exact ⟨y, rfl, hr⟩

theorem typeUse_ok {s a s'} (h : typeUse dbg s = .ok a s') (he : s'.errs = []) (hs : Settled dbg s) :
    (∃ cs, a = [.node .TYPE_USE (.tok .L_PAREN ['('] :: cs)]) ∨
    (∃ x s1, param dbg s = .ok x s1 ∧ ∃ cs, a = [.node .TYPE_USE (x ++ cs)]) ∨
    ∃ x s1, result dbg s = .ok x s1 := by
  unfold typeUse at h
  have m1 := (rg_param (dbg := dbg) (b := true)).mono
  have m2 := (rg_result (dbg := dbg) (b := true)).mono
  have mt1 : Mono (nodeP .TYPE_USE (seq [lParen, tp dbg (keyword t!"type"), must (retryOnce dbg index []), rParen dbg,
      many dbg (tp dbg (param dbg)), many dbg (tp dbg (result dbg))])) := by
    have : Rg dbg true (nodeP .TYPE_USE (seq [lParen, tp dbg (keyword t!"type"), must (retryOnce dbg index []), rParen dbg,
      many dbg (tp dbg (param dbg)), many dbg (tp dbg (result dbg))])) := by rg [rg_index, rg_param, rg_result]
    exact this.mono
  have mt2 : Mono (nodeP .TYPE_USE (seq [many1 dbg (tp dbg (param dbg)), many dbg (tp dbg (result dbg))])) :=
    mono_node (mono_seq_cons (mono_many1 (mono_tp m1)) (mono_seq_cons (mono_many (mono_tp m2)) mono_pure_nil))
  have mt3 : Mono (nodeP .TYPE_USE (many1 dbg (tp dbg (result dbg)))) := mono_node (mono_many1 (mono_tp m2))
  rcases alt2_clean mt1 (mono_alt_cons mt2 (mono_alt_one mt3)) h he with h | ⟨_, h⟩
  · obtain ⟨cs, rfl, _⟩ := openSeq h
    exact .inl ⟨cs, rfl⟩
  · rcases alt2_clean mt2 (mono_alt_one mt3) h he with h | ⟨_, h⟩
    · obtain ⟨cs, h1, rfl⟩ := node_ok h
      obtain ⟨x, s1, y, h2, h3, rfl⟩ := seq_cons_ok h1
      obtain ⟨x1, s2, y1, h4, h5, rfl⟩ := many1_ok h2
      exact .inr (.inl ⟨x1, s2, settled_tp hs h4, y1 ++ y, by simp⟩)
    · obtain ⟨cs, h1, rfl⟩ := node_ok (h : nodeP .TYPE_USE _ s = _)
      obtain ⟨x1, s2, y1, h4, h5, rfl⟩ := many1_ok h1
      exact .inr (.inr ⟨x1, s2, settled_tp hs h4⟩)

theorem typeUse_type {s a s'} (h : typeUse dbg s = .ok a s') (he : s'.errs = []) (hs : Settled dbg s) {s1 : St}
    (hw : (bind (lit ['(']) fun _ => bind (trivias dbg) fun _ => word) s = .ok t!"type" s1) :
    ∃ cs, a = [.node .TYPE_USE (.tok .L_PAREN ['('] :: cs)] := by
  rcases typeUse_ok h he hs with h | ⟨x, s1, h, _⟩ | ⟨x, s1, h⟩
  · exact h
  · obtain ⟨cs, h1, _⟩ := node_ok h
    exact absurd (open_word hw h1) (by decide)
  · obtain ⟨cs, h1, _⟩ := node_ok h
    exact absurd (open_word hw h1) (by decide)

theorem begins_strip {k k' : Kind} {g : Green} {cs : List Green} (hb : isBlank g = false) :
    BeginsWith k (strip (.node k' (g :: cs))) ↔ g.kind = k := by
  rw [strip_node]
  have : stripL (g :: cs) = strip g :: stripL cs := by simp [stripL, hb]
  rw [this]
  constructor
  · rintro ⟨k2, x, r, h, hk⟩
    cases h
    rwa [strip_kind'] at hk
  · intro h
    exact ⟨k', strip g, stripL cs, rfl, by rwa [strip_kind']⟩

theorem rg_blockType : Rg dbg true (blockType dbg) := by
  unfold blockType
  have m1 : Mono (nodeP .BLOCK_TYPE (result dbg)) := mono_node (rg_result (b := true)).mono
  have m2 : Mono (nodeP .BLOCK_TYPE (typeUse dbg)) := mono_node (rg_typeUse (b := true)).mono
  refine ⟨mono_alt_cons m1 (mono_alt_one m2), fun {s a s'} h he hs => ?_⟩
  rcases alt2_clean m1 (mono_alt_one m2) h he with h | ⟨⟨e, s1, hf⟩, h⟩
  · obtain ⟨cs, h1, rfl⟩ := node_ok h
    have hr := (rg_result (b := true)).ok h1 he hs
    obtain ⟨cs', _, rfl⟩ := node_ok h1
    refine ⟨⟨fun g hg hk => ?_, hr⟩, trivial⟩
    rw [stripL_node, stripL_nil, List.mem_singleton] at hg
    subst hg; cases hk
  · obtain ⟨cs, h1, rfl⟩ := node_ok (h : nodeP .BLOCK_TYPE _ s = _)
    have hr := (rg_typeUse (b := true)).ok h1 he hs
    refine ⟨⟨fun g hg hk => ?_, hr⟩, trivial⟩
    rcases typeUse_ok h1 he (hs rfl) with ⟨cs, rfl⟩ | ⟨x, s2, h2, cs, rfl⟩ | ⟨x, s2, h2⟩
    · rw [stripL_one rfl, List.mem_singleton] at hg
      subst hg
      rw [begins_strip rfl]
      decide
    · obtain ⟨cs', _, rfl⟩ := node_ok h2
      rw [stripL_one rfl, List.mem_singleton] at hg
      subst hg
      rw [List.cons_append, begins_strip rfl]
      simp [Green.kind]
    · have : ∃ e s1, result dbg s = .fail e s1 := ⟨_, _, map_fail hf⟩
      obtain ⟨_, _, h3⟩ := this
      rw [h3] at h2; cases h2

/-! ### Operands -/

/-- What is needed of the parser of instructions. -/
structure InsOk (dbg : Bool) (ins : G) : Prop where
  rg : Rg dbg false ins
  snd : Snd true ins [[.one instrTerms]]
  /-- A folded one begins with its parenthesis. -/
  fold : ∀ {s a s'}, ins s = .ok a s' → s'.errs = [] → ∀ r, s.rest = '(' :: r → ∃ k cs, a = [.node k (.tok .L_PAREN ['('] :: cs)]
  /-- After a block without a label there is no identifier. -/
  shape : ∀ {s a s'}, ins s = .ok a s' → s'.errs = [] → ∃ k cs, a = [.node k cs] ∧ k ∈ instructionKinds ∧ (Unlabelled (strip (.node k cs)) → NoId dbg s')

/-- What an operand is. -/
structure OpOk (dbg al : Bool) (s s' : St) (x : Green) : Prop where
  solid : isBlank x = false
  loc : Loc .OPERAND [x]
  reg : RegT x
  last : Unlabelled (strip x) → NoId dbg s'
  first : HeadId (strip x) → ∃ b s1, ident s = .ok b s1
  plain : al = false → x.kind ∉ instructionKinds

/-- A token as an operand. -/
theorem opOk_tok {al : Bool} {s s' : St} {k : Kind} {t : Text} (hk : k ∉ [Kind.IDENT, .WHITESPACE, .LINE_COMMENT, .BLOCK_COMMENT, .PLAIN_INSTR, .BLOCK_BLOCK, .BLOCK_LOOP, .BLOCK_IF, .TYPE_USE, .OPERAND, .OFFSET])
    (hf : RegT (.tok k t)) : OpOk dbg al s s' (.tok k t) := by
  simp only [List.mem_cons, List.not_mem_nil, or_false, not_or] at hk
  have hb : isBlank (.tok k t) = false := by
    cases k <;> first | rfl | simp_all
  refine ⟨hb, fun g hg h => ?_, hf, fun h => ?_, fun h => ?_, fun _ h => ?_⟩
  · rw [stripL_one hb, strip_tok, List.mem_singleton] at hg
    subst hg
    simp [Green.kind, instructionKinds] at h
    simp_all
  · rw [strip_tok] at h; cases h
  · rw [strip_tok, headId_tok] at h; exact absurd h hk.1
  · simp [Green.kind, instructionKinds] at h
    simp_all

/-- An element with parentheses as an operand. -/
theorem opOk_node {al : Bool} {s s' : St} {k : Kind} {cs : List Green} (hf : RegT (.node k (.tok .L_PAREN ['('] :: cs)))
    (hu : Unlabelled (strip (.node k (.tok .L_PAREN ['('] :: cs))) → NoId dbg s') (hp : al = false → k ∉ instructionKinds) :
    OpOk dbg al s s' (.node k (.tok .L_PAREN ['('] :: cs)) := by
  refine ⟨rfl, fun g hg h => ?_, hf, hu, fun h => ?_, hp⟩
  · rw [stripL_one rfl, List.mem_singleton] at hg
    subst hg
    rw [begins_strip rfl]
    rfl
  · rw [strip_node, stripL_tok rfl] at h
    exact absurd h (not_headId_open (by decide))

theorem operand_ok (hi : InsOk dbg ins) {al : Bool} {s o s'} (hs : Settled dbg s) (h : operand dbg ins al s = .ok o s') (he : s'.errs = []) :
    ∃ x, o = [.node .OPERAND [x]] ∧ OpOk dbg al s s' x := by
  obtain ⟨cs, h0, rfl⟩ := node_ok (context_ok h)
  obtain ⟨c, s1, h1, h2⟩ := bind_ok h0
  unfold P.peek P.any at h1
  have hc : s1 = s ∧ ∃ r, s.rest = c :: r := by
    cases hr : s.rest <;> simp only [hr] at h1 <;> cases h1
    exact ⟨rfl, _, rfl⟩
  obtain ⟨rfl, r, hr⟩ := hc
  suffices ∃ x, cs = [x] ∧ OpOk dbg al s1 s' x by
    obtain ⟨x, rfl, hx⟩ := this
    exact ⟨x, rfl, hx⟩
  have tokcase : ∀ {k : Kind} {q : P Text}, tokP k q s1 = .ok cs s' → k ∉ [Kind.FLOAT, Kind.IDENT, .WHITESPACE, .LINE_COMMENT, .BLOCK_COMMENT, .PLAIN_INSTR, .BLOCK_BLOCK, .BLOCK_LOOP, .BLOCK_IF, .TYPE_USE, .OPERAND, .OFFSET] →
      ∃ x, cs = [x] ∧ OpOk dbg al s1 s' x := by
    intro k q hq hk
    obtain ⟨t, _, rfl⟩ := map_ok hq
    simp only [List.mem_cons, not_or] at hk
    exact ⟨_, rfl, opOk_tok (by simpa using hk.2) fun h => absurd h hk.1⟩
  have floatcase : float s1 = .ok cs s' → ∃ x, cs = [x] ∧ OpOk dbg al s1 s' x := by
    intro hq
    have := (rg_float (dbg := dbg) (b := false)).ok hq he (by simp)
    obtain ⟨t, _, rfl⟩ := map_ok hq
    exact ⟨_, rfl, opOk_tok (by decide) this.1⟩
  split at h2
  · rcases alt_ok h2 with h2 | ⟨e, s2, h3, h2⟩
    · exact tokcase h2 (by decide)
    · have hm := (rg_ofTok (dbg := dbg) (b := false) snd_int rfl).mono
      have e1 : s2.errs = [] := show (s2.resetTo s1).errs = [] from (rg_float (dbg := dbg) (b := false)).mono.ok (h2 : float _ = _) he
      rw [reset_clean (hm.fail h3 e1) e1] at h2
      exact floatcase h2
  split at h2
  · exact floatcase h2
  split at h2
  · exact tokcase h2 (by decide)
  split at h2
  · obtain ⟨t, _, rfl⟩ := map_ok (h2 : ident _ = _)
    refine ⟨_, rfl, rfl, fun g hg hk => ?_, (fun h => by cases h), fun h => ?_, fun _ => ⟨_, _, h2⟩, fun _ h => ?_⟩
    · rw [stripL_one rfl, strip_tok, List.mem_singleton] at hg
      subst hg
      simp [Green.kind, instructionKinds] at hk
    · rw [strip_tok] at h; cases h
    · simp [Green.kind, instructionKinds] at h
  split at h2
  · rename_i hc
    simp only [beq_iff_eq] at hc
    subst hc
    obtain ⟨w, s2, h3, h4⟩ := bind_ok h2
    have e2 : s2.errs = [] := by
      split at h4
      · exact (rg_typeUse (dbg := dbg) (b := true)).mono.ok h4 he
      · split at h4
        · exact hi.rg.mono.ok h4 he
        · cases h4
    obtain ⟨rfl, s3, h5⟩ := peek_ok mono_parenWord h3 e2
    split at h4
    · rename_i hw
      simp only [beq_iff_eq] at hw
      subst hw
      have hr' := (rg_typeUse (dbg := dbg) (b := true)).ok h4 he fun _ => hs
      obtain ⟨c, rfl⟩ := typeUse_type h4 he hs h5
      exact ⟨_, rfl, opOk_node hr'.1 (fun h => by have := unlabelled_kind h; simp [strip, Green.kind] at this) fun _ => by decide⟩
    · split at h4
      · rename_i ha
        have hr' := hi.rg.ok h4 he (by simp)
        obtain ⟨k, c, rfl⟩ := hi.fold h4 he r hr
        obtain ⟨k', c', e, hk, hu⟩ := hi.shape h4 he
        cases e
        exact ⟨_, rfl, opOk_node hr'.1 hu fun h => by rw [h] at ha; cases ha⟩
      · cases h4
  split at h2
  · exact tokcase h2 (by decide)
  split at h2
  · obtain ⟨w, _, h3⟩ := verifyMap_ok h2
    split at h3
    · cases h3
      exact ⟨_, rfl, opOk_tok (by decide) fun h => by cases h⟩
    · cases h3
  · cases h2

theorem rg_operand (hi : InsOk dbg ins) {al : Bool} (hh : Heads ins) : Rg dbg true (operand dbg ins al) :=
  ⟨(snd_operand hi.snd hh).mono, fun h he hs => by
    obtain ⟨x, rfl, hx⟩ := operand_ok hi (hs rfl) h he
    exact ⟨⟨hx.loc, hx.reg, trivial⟩, trivial⟩⟩

/-! ### Plain instructions -/

/-- What the operands of an instruction are, from the state they are read from. -/
structure OpsOk (dbg al : Bool) (s : St) (l : List Green) : Prop where
  reg : RegL l
  first : NoId dbg s → ∀ y r, stripL l = y :: r → ¬ HeadId y
  adj : Adj (stripL l)
  plain : al = false → ∀ o c, .node .OPERAND o ∈ stripL l → c ∈ o → c.kind ∉ instructionKinds
  kinds : ∀ g ∈ stripL l, g.kind = .OPERAND

theorem opsOk_nil {al : Bool} {s : St} : OpsOk dbg al s [] :=
  ⟨trivial, fun _ _ _ h => by simp [stripL] at h, by rw [stripL_nil]; exact adj_nil, fun _ _ _ h => by simp [stripL] at h, fun _ h => by simp [stripL] at h⟩

theorem opsOk_cons {al : Bool} {s s1 s2 : St} {tr o l : List Green} (h1 : trivias dbg s = .ok tr s1)
    {x : Green} (ho : o = [.node .OPERAND [x]]) (hx : OpOk dbg al s1 s2 x) (hl : OpsOk dbg al s2 l) : OpsOk dbg al s (tr ++ o ++ l) := by
  subst ho
  have e : stripL (tr ++ [.node .OPERAND [x]] ++ l) = .node .OPERAND [strip x] :: stripL l := by
    rw [stripL_append, stripL_append, (blank_triv h1).1, List.nil_append, stripL_node, stripL_nil, stripL_one hx.solid]; rfl
  refine ⟨regL_append (regL_append (regL_blank (trivias_yield h1).2.1) ⟨⟨hx.loc, hx.reg, trivial⟩, trivial⟩) hl.reg, ?_, ?_, ?_, ?_⟩ <;> rw [e]
  · rintro hn y r h hy
    cases h
    have : HeadId (strip x) := by
      obtain ⟨t, r, h⟩ := hy
      simp only [Green.toks, Green.toksL, List.append_nil] at h
      exact ⟨t, r, h⟩
    obtain ⟨b, s', hb⟩ := hx.first this
    exact hn _ _ (tp_run h1 hb)
  · refine adj_cons (fun y r h hu => ?_) hl.adj
    have : Unlabelled (strip x) := by
      cases hu with
      | block hk _ => rcases hk with h | h <;> cases h
      | inside _ h => exact h
    exact hl.first (hx.last this) y r h
  · intro ha o c hm hc
    rcases List.mem_cons.mp hm with h | h
    · cases h
      rw [List.mem_singleton] at hc
      subst hc
      rw [strip_kind']
      exact hx.plain ha
    · exact hl.plain ha o c h hc
  · intro g hg
    rcases List.mem_cons.mp hg with rfl | h
    · rfl
    · exact hl.kinds g h

theorem many_ops (hi : InsOk dbg ins) (hh : Heads ins) {al : Bool} {rd : G → G} (hm : Mono (rd (operand dbg ins al)))
    (hrd : ∀ {s a s'}, rd (operand dbg ins al) s = .ok a s' → s'.errs = [] → ∃ tr s1 o, trivias dbg s = .ok tr s1 ∧ operand dbg ins al s1 = .ok o s' ∧ a = tr ++ o)
    {s a s'} (h : many dbg (rd (operand dbg ins al)) s = .ok a s') (he : s'.errs = []) : OpsOk dbg al s a := by
  obtain ⟨l, rfl, hl⟩ := many_ind hm (R := fun s l _ => OpsOk dbg al s l.flatten) (fun _ => opsOk_nil) (fun s a s1 l s' h1 h2 h3 => by
    obtain ⟨tr, s2, o, h4, h5, rfl⟩ := hrd h1 h2
    obtain ⟨x, ho, hx⟩ := operand_ok hi (settled h4) h5 h2
    rw [List.flatten_cons]
    exact opsOk_cons h4 ho hx h3) h he
  exact hl

theorem unlab_instr {k : Kind} {cs : List Green} (hk : k ≠ .BLOCK_BLOCK) (hk2 : k ≠ .BLOCK_LOOP) (hk3 : k ≠ .OPERAND) (hk4 : k ≠ .OFFSET) : ¬ Unlabelled (strip (.node k cs)) := by
  intro h
  have := unlabelled_kind h
  rw [strip_kind'] at this
  simp only [Green.kind] at this
  simp_all

theorem rParen_strip {s a s'} (h : rParen dbg s = .ok a s') (he : s'.errs = []) : ∃ t, stripL a = [.tok .R_PAREN t] := by
  have k := (snd_rParen.ok h he).2.1
  obtain ⟨t', h1, g, h2, h3⟩ := match_one (matchAny_one k.prod)
  simp only [List.mem_singleton] at h1
  subst h1
  rw [stripL_signif, h2]
  cases g with
  | tok k t => simp only [Term.is] at h3; subst h3; exact ⟨t, by simp [strip]⟩
  | node k cs => exact absurd h3 (by simp [Term.is])

/-- What an instruction is. -/
structure InsRun (dbg : Bool) (s : St) (a : List Green) (s' : St) : Prop where
  reg : RegL a
  fold : ∀ r, s.rest = '(' :: r → ∃ k cs, a = [.node k (.tok .L_PAREN ['('] :: cs)]
  shape : ∃ k cs, a = [.node k cs] ∧ k ∈ instructionKinds ∧ (Unlabelled (strip (.node k cs)) → NoId dbg s')

theorem not_lower_paren {s : St} (h : ∃ c r, s.rest = c :: r ∧ isLower c = true) {r : Text} (hr : s.rest = '(' :: r) : False := by
  obtain ⟨c, r', h1, h2⟩ := h
  rw [hr] at h1; cases h1
  revert h2; decide

theorem plainInstr_run (hi : InsOk dbg ins) (hh : Heads ins) {s a s'} (h : plainInstr dbg ins s = .ok a s') (he : s'.errs = []) : InsRun dbg s a s' := by
  unfold plainInstr at h
  have mo : ∀ al, Mono (operand dbg ins al) := fun al => (rg_operand hi hh).mono
  have mr : Mono (rParen dbg) := (rg_ofTok (dbg := dbg) (b := false) snd_rParen rfl).mono
  have ml : Mono lParen := (rg_ofTok (dbg := dbg) (b := false) snd_lParen rfl).mono
  have mi : Mono instrName := (rg_ofTok (dbg := dbg) (b := false) snd_instrName rfl).mono
  have m1 : Mono (nodeP .PLAIN_INSTR (seq [lParen, tp dbg instrName, many dbg (retryOnce dbg (operand dbg ins true) []), rParen dbg])) :=
    mono_node (mono_seq_cons ml (mono_seq_cons (mono_tp mi) (mono_seq_cons (mono_many (mono_retryOnce (mo _))) (mono_seq_cons mr mono_pure_nil))))
  have m2 : Mono (nodeP .PLAIN_INSTR (seq [instrName, many dbg (tp dbg (operand dbg ins false))])) :=
    mono_node (mono_seq_cons mi (mono_seq_cons (mono_many (mono_tp (mo _))) mono_pure_nil))
  rcases alt2_clean m1 (mono_alt_one m2) h he with h | ⟨_, h⟩
  · obtain ⟨cs, h1, rfl⟩ := node_ok h
    obtain ⟨x, s1, y, h2, h3, rfl⟩ := seq_cons_ok h1
    obtain ⟨rfl, hr⟩ := lParen_ok h2
    obtain ⟨x, s2, y, h4, h5, rfl⟩ := seq_cons_ok h3
    obtain ⟨tr, s3, o, h6, h7, rfl⟩ := tp_ok h4
    obtain ⟨t, _, rfl⟩ := map_ok h7
    obtain ⟨ops, s4, y, h8, h9, rfl⟩ := seq_cons_ok h5
    rw [seq_one] at h9
    have e4 := mr.ok h9 he
    have hops := many_ops hi hh (rd := fun p => retryOnce dbg p []) (mono_retryOnce (mo _)) (fun h he => retryOnce_ok h he) h8 e4
    obtain ⟨t', hrp⟩ := rParen_strip h9 he
    have e : stripL ([.tok .L_PAREN ['(']] ++ (tr ++ [.tok .INSTR_NAME t] ++ (ops ++ y))) =
        .tok .L_PAREN ['('] :: .tok .INSTR_NAME t :: (stripL ops ++ [.tok .R_PAREN t']) := by
      rw [List.singleton_append, stripL_tok rfl, stripL_append, stripL_append, (blank_triv h6).1, stripL_tok rfl, stripL_append, hrp, stripL_nil]; rfl
    refine ⟨⟨⟨⟨fun t r h => ?_, ?_⟩, ?_⟩, trivial⟩, fun _ _ => ⟨_, _, rfl⟩, _, _, rfl, by decide, fun h => absurd h (unlab_instr (by decide) (by decide) (by decide) (by decide))⟩
    · rw [e] at h; cases h
    · rw [e]
      exact adj_cons (fun _ _ _ h => by cases h) (adj_cons (fun _ _ _ h => by cases h) (adj_snoc hops.adj (by rw [headId_tok]; decide)))
    · exact regL_append (a := [.tok .L_PAREN ['(']]) ⟨(fun h => by cases h), trivial⟩ (regL_append (regL_append (regL_blank (trivias_yield h6).2.1) ⟨(fun h => by cases h), trivial⟩)
        (regL_append hops.reg ((rg_ofTok (dbg := dbg) (b := false) snd_rParen rfl).ok h9 he (by simp))))
  · obtain ⟨cs, h1, rfl⟩ := node_ok (h : nodeP .PLAIN_INSTR _ s = _)
    obtain ⟨x, s1, ops, h2, h3, rfl⟩ := seq_cons_ok h1
    have hd := instrName_head h2
    obtain ⟨t, _, rfl⟩ := map_ok h2
    rw [seq_one] at h3
    have hops := many_ops hi hh (rd := fun p => tp dbg p) (mono_tp (mo _)) (fun h _ => tp_ok h) h3 he
    have e : stripL ([.tok .INSTR_NAME t] ++ ops) = .tok .INSTR_NAME t :: stripL ops := by
      rw [List.singleton_append, stripL_tok rfl]
    refine ⟨⟨⟨⟨fun t r h o c ho hc => ?_, ?_⟩, ?_⟩, trivial⟩, fun r hr => (not_lower_paren hd hr).elim, _, _, rfl, by decide, fun h => absurd h (unlab_instr (by decide) (by decide) (by decide) (by decide))⟩
    · rw [e] at h; cases h
      exact hops.plain rfl o c ho hc
    · rw [e]
      exact adj_cons (fun _ _ _ h => by cases h) hops.adj
    · exact ⟨(fun h => by cases h), hops.reg⟩

/-! ### Blocks -/

theorem repeatTillF_reg {g : P β} (h : Rg dbg false p) (hg : Mono g) : ∀ fuel s l s', repeatTillF dbg p g fuel s = .ok l s' → s'.errs = [] →
    s.errs = [] ∧ RegL l.1.flatten ∧ ∃ s0, g s0 = .ok l.2 s' := by
  intro fuel
  induction fuel with
  | zero => intro s l s' hp; cases hp
  | succ fuel ih =>
    intro s l s' hp he
    unfold repeatTillF at hp
    cases hgs : g s <;> simp only [hgs] at hp <;> try cases hp
    · exact ⟨hg.ok hgs he, trivial, _, hgs⟩
    · rename_i e0 s0
      cases hps : p (s0.resetTo s) <;> simp only [hps] at hp <;> try cases hp
      split at hp
      · unfold assertFail at hp; split at hp <;> cases hp
      · obtain ⟨l, h3, rfl⟩ := map_ok hp
        obtain ⟨k1, k2, k3⟩ := ih _ _ _ h3 he
        refine ⟨hg.fail hgs (show (s0.resetTo s).errs = [] from h.mono.ok hps k1), ?_, k3⟩
        rw [List.flatten_cons]
        exact regL_append (h.ok hps k1 (by simp)) k2

theorem rg_instrsTill {ends : List Text} (hi : InsOk dbg ins) : Rg dbg b (instrsTill dbg ins ends) :=
  ⟨(snd_instrsTill hi.snd).mono, fun h he _ => by
    obtain ⟨l, h1, rfl⟩ := map_ok h
    exact (repeatTillF_reg (rg_retryOnce (al := []) hi.rg.weak) mono_peekEnd _ _ _ _ h1 he).2.1⟩

/-- Where a block ends. -/
theorem block_end {k : Kind} {s s' : St} {ps : List G} {cs : List Green} (hk : k = .BLOCK_BLOCK ∨ k = .BLOCK_LOOP)
    (h : seq (ps ++ [optG (tp dbg ident)]) s = .ok cs s') (hu : Unlabelled (strip (.node k cs))) : NoId dbg s' := by
  obtain ⟨x, s1, y, h1, h2, rfl⟩ := seq_last h
  rcases optIdent h2 with ⟨tr, t, h3, rfl⟩ | ⟨rfl, rfl, h3⟩
  · exfalso
    rw [strip_node, stripL_append, stripL_append, h3, stripL_tok rfl, stripL_nil] at hu
    generalize hl : stripL x ++ ([] ++ [.tok .IDENT t]) = l at hu
    cases hu with
    | block _ hn => exact hn (stripL x) t hl.symm
    | inside hk' _ => rcases hk with rfl | rfl <;> rcases hk' with h | h <;> cases h
  · exact h3

theorem rg_optIdent : Rg dbg b (optG (tp dbg ident)) := by rg []

theorem blockLike_run (hi : InsOk dbg ins) {kw : Text} {k : Kind} (hk : k = .BLOCK_BLOCK ∨ k = .BLOCK_LOOP)
    (hkw : Rg dbg true (keyword kw)) {s a s'} (h : blockLike dbg ins kw k s = .ok a s') (he : s'.errs = []) : InsRun dbg s a s' := by
  unfold blockLike at h
  have hsp : special k = false := by rcases hk with rfl | rfl <;> rfl
  have hki : k ∈ instructionKinds := by rcases hk with rfl | rfl <;> decide
  have hkw' : Rg dbg false (keyword kw) := ⟨hkw.mono, fun {s a s'} h _ _ => by
    obtain ⟨rfl, _⟩ := keyword_ok h
    exact ⟨(fun h => by cases h), trivial⟩⟩
  have hii : Rg dbg false ins := hi.rg
  have hti : Rg dbg false (instrsTill dbg ins [t!"end"]) := rg_instrsTill hi
  have r1 : Rg dbg false (nodeP k (seq [keyword kw, optG (tp dbg ident), optG (tp dbg (blockType dbg)),
      instrsTill dbg ins [t!"end"], must (tp dbg (keyword t!"end")), optG (tp dbg ident)])) := by
    rg [hkw', rg_blockType, hti]
    exact hsp
  have r2 : Rg dbg false (nodeP k (seq [lParen, tp dbg (keyword kw), optG (tp dbg ident), optG (tp dbg (blockType dbg)),
      many dbg (retry dbg ins []), rParen dbg, optG (tp dbg ident)])) := by
    rg [hkw, rg_blockType, hii]
    exact hsp
  rcases alt2_clean r1.mono (mono_alt_one r2.mono) h he with h | ⟨_, h⟩
  · have hr := r1.ok h he (by simp)
    obtain ⟨cs, h1, rfl⟩ := node_ok h
    have hd : ∃ c r, s.rest = c :: r ∧ isLower c = true := by
      obtain ⟨x, s1, y, h2, h3, rfl⟩ := seq_cons_ok h1
      exact keyword_head h2
    exact ⟨hr, fun r hr => (not_lower_paren hd hr).elim, _, _, rfl, hki, block_end (ps := [_, _, _, _, _]) hk h1⟩
  · have hr := r2.ok (h : nodeP k _ s = _) he (by simp)
    obtain ⟨cs, e, _⟩ := openSeq (h : nodeP k _ s = _)
    obtain ⟨cs', h1, rfl⟩ := node_ok (h : nodeP k _ s = _)
    cases e
    exact ⟨hr, fun _ _ => ⟨_, _, rfl⟩, _, _, rfl, hki, block_end (ps := [_, _, _, _, _, _]) hk h1⟩

/-! ### Conditionals -/

theorem begins_first {k : Kind} {g : Green} (h : BeginsWith k g) : ∃ k' x r, g = .node k' (x :: r) ∧ x.kind = k := h

/-- An element of instruction kinds only does not begin with a parenthesis of its own. -/
theorem not_begins {k k' : Kind} {cs : List Green} {K : List Kind} (h : ∀ g ∈ stripL cs, g.kind ∈ K) (hk : k ∉ K) : ¬ BeginsWith k (strip (.node k' cs)) := by
  rintro ⟨k2, x, r, e, hx⟩
  rw [strip_node] at e
  have : stripL cs = x :: r := by injection e
  exact hk (hx ▸ h x (by rw [this]; exact .head _))

theorem mem_strip_append {g : Green} {a b : List Green} (h : g ∈ stripL (a ++ b)) : g ∈ stripL a ∨ g ∈ stripL b := by
  rw [stripL_append] at h; exact List.mem_append.mp h

theorem unfoldedIf_loc {s s' : St} (hi : InsOk dbg ins) {cs : List Green}
    (h : seq [keyword t!"if", optG (tp dbg ident), optG (tp dbg (blockType dbg)),
      nodeP .BLOCK_IF_THEN (instrsTill dbg ins [t!"end", t!"else"]),
      optG (seq [trivias dbg, nodeP .BLOCK_IF_ELSE (seq [keyword t!"else", optG (tp dbg ident), instrsTill dbg ins [t!"end"]])]),
      must (tp dbg (keyword t!"end")), optG (tp dbg ident)] s = .ok cs s') (he : s'.errs = [])
    (mE : Mono (seq [must (tp dbg (keyword t!"end")), optG (tp dbg ident)]))
    (mO : Mono (seq [optG (seq [trivias dbg, nodeP .BLOCK_IF_ELSE (seq [keyword t!"else", optG (tp dbg ident), instrsTill dbg ins [t!"end"]])]), must (tp dbg (keyword t!"end")), optG (tp dbg ident)])) :
    Loc .BLOCK_IF cs := by
  obtain ⟨x1, s1, y, h1, h2, rfl⟩ := seq_cons_ok h
  obtain ⟨x2, s2, y, h3, h4, rfl⟩ := seq_cons_ok h2
  obtain ⟨x3, s3, y, h5, h6, rfl⟩ := seq_cons_ok h4
  obtain ⟨x4, s4, y, h7, h8, rfl⟩ := seq_cons_ok h6
  obtain ⟨x5, s5, y, h9, h10, rfl⟩ := seq_cons_ok h8
  obtain ⟨x6, s6, x7, h11, h12, rfl⟩ := seq_cons_ok h10
  rw [seq_one] at h12
  obtain ⟨rfl, _⟩ := keyword_ok h1
  have e5 := mE.ok h10 he
  have e4 := mO.ok h8 he
  have e6 := (rg_optIdent (b := false)).mono.ok h12 he
  intro g hg hk
  have no : ¬ ∃ t r, stripL ([.tok .KEYWORD t!"if"] ++ (x2 ++ (x3 ++ (x4 ++ (x5 ++ (x6 ++ x7)))))) = .tok .L_PAREN t :: r := by
    rintro ⟨t, r, h⟩
    rw [List.singleton_append, stripL_tok rfl] at h
    cases h
  suffices ¬ BeginsWith .L_PAREN g by exact ⟨fun h => absurd h this, fun h => absurd h no⟩
  have idk : ∀ {s a s'}, optG (tp dbg ident) s = .ok a s' → g ∈ stripL a → False := by
    intro s a s' h hg
    rcases optIdent h with ⟨tr, t, h3, rfl⟩ | ⟨rfl, _⟩
    · rw [stripL_append, h3, stripL_tok rfl, stripL_nil, List.nil_append, List.mem_singleton] at hg
      subst hg
      simp [Green.kind] at hk
    · simp [stripL] at hg
  rcases mem_strip_append hg with hg | hg
  · rw [stripL_tok rfl, stripL_nil, List.mem_singleton] at hg
    subst hg
    simp [Green.kind] at hk
  rcases mem_strip_append hg with hg | hg
  · exact (idk h3 hg).elim
  rcases mem_strip_append hg with hg | hg
  · exfalso
    rcases optG_ok h5 with h5 | ⟨rfl, _⟩
    · obtain ⟨tr, s0, o, h13, h14, rfl⟩ := tp_ok h5
      have hbt : ∃ c, o = [.node .BLOCK_TYPE c] := by
        rcases alt_ok h14 with h | ⟨_, _, _, h⟩
        · obtain ⟨c, _, rfl⟩ := node_ok h; exact ⟨c, rfl⟩
        · obtain ⟨c, _, rfl⟩ := node_ok (h : nodeP .BLOCK_TYPE _ _ = _); exact ⟨c, rfl⟩
      obtain ⟨c, rfl⟩ := hbt
      rw [stripL_append, (blank_triv h13).1, stripL_node, stripL_nil, List.nil_append, List.mem_singleton] at hg
      subst hg
      simp [Green.kind] at hk
    · simp [stripL] at hg
  rcases mem_strip_append hg with hg | hg
  · obtain ⟨c, h13, rfl⟩ := node_ok h7
    rw [stripL_one rfl, List.mem_singleton] at hg
    subst hg
    exact not_begins (snd_kinds (snd_instrsTill hi.snd) h13 e4 (K := instructionKinds) (by decide)) (by decide)
  rcases mem_strip_append hg with hg | hg
  · rcases optG_ok h9 with h9 | ⟨rfl, _⟩
    · obtain ⟨tr, s0, o, h13, h14, rfl⟩ := tp_ok (p := nodeP .BLOCK_IF_ELSE _) h9
      obtain ⟨c, h15, rfl⟩ := node_ok h14
      obtain ⟨z, s8, z', h16, h17, rfl⟩ := seq_cons_ok h15
      obtain ⟨rfl, _⟩ := keyword_ok h16
      rw [stripL_append, (blank_triv h13).1, List.nil_append, stripL_one rfl, List.mem_singleton] at hg
      subst hg
      rw [List.singleton_append, begins_strip rfl]
      simp [Green.kind]
    · simp [stripL] at hg
  rcases mem_strip_append hg with hg | hg
  · exfalso
    obtain ⟨tr, s0, o, h13, h14, rfl⟩ := tp_ok (must_ok h11 e6)
    obtain ⟨rfl, _⟩ := keyword_ok h14
    rw [stripL_append, (blank_triv h13).1, List.nil_append, stripL_tok rfl, stripL_nil, List.mem_singleton] at hg
    subst hg
    simp [Green.kind] at hk
  · exact (idk h12 hg).elim

theorem conds_reg (hi : InsOk dbg ins) {s s' : St} {cl : List Green × List Green} (h : ifCondsThen dbg ins s = .ok cl s') (he : s'.errs = []) :
    RegL cl.1 ∧ RegL cl.2 ∧ ∃ r, cl.2 = .tok .L_PAREN ['('] :: r := by
  obtain ⟨l, h1, rfl⟩ := map_ok h
  obtain ⟨_, h2, s0, h3⟩ := repeatTillF_reg (rg_retry (al := []) hi.rg.weak) (thenOpen_spec (dbg := dbg)).1 _ _ _ _ h1 he
  obtain ⟨tr, s1, h4, h5⟩ := bind_ok h3
  obtain ⟨lk, h6, e⟩ := map_ok h5
  rw [e]
  refine ⟨regL_append h2 (regL_blank (trivias_yield h4).2.1), ?_, ?_⟩
  · have : Rg dbg false (seq [lParen, tp dbg (keyword t!"then")]) := by rg []
    exact this.ok h6 he (by simp)
  · obtain ⟨x, s2, y, h7, _, rfl⟩ := seq_cons_ok h6
    obtain ⟨rfl, _⟩ := lParen_ok h7
    exact ⟨y, rfl⟩

/-- The `else` part of a folded conditional. -/
def foldedElse (dbg : Bool) (ins : G) : G :=
  optG (seq [trivias dbg, nodeP .BLOCK_IF_ELSE (seq [lParen, tp dbg (keyword t!"else"), many dbg (retry dbg ins []), rParen dbg])])

theorem rg_foldedElse (hi : InsOk dbg ins) : Rg dbg false (foldedElse dbg ins) := by
  have := hi.rg
  unfold foldedElse
  rg [this]

/-- The parts of a folded conditional after its type. -/
def foldedArms (dbg : Bool) (ins : G) : G :=
  bind (ifCondsThen dbg ins) fun cl =>
    seq [map (fun rest => cl.1 ++ [.node .BLOCK_IF_THEN (cl.2 ++ rest)]) (seq [many dbg (retry dbg ins []), rParen dbg]),
      foldedElse dbg ins, rParen dbg]

theorem foldedArms_ok (hi : InsOk dbg ins) : Rg dbg false (foldedArms dbg ins) ∧
    ∀ s a s', foldedArms dbg ins s = .ok a s' → s'.errs = [] → ∀ g ∈ stripL a, g.kind = .BLOCK_IF_THEN ∨ g.kind = .BLOCK_IF_ELSE → BeginsWith .L_PAREN g := by
  have r0 := hi.rg
  have r1 : Rg dbg false (seq [many dbg (retry dbg ins []), rParen dbg]) := by rg [r0]
  have r2 := rg_foldedElse hi
  have r3 : Rg dbg false (rParen dbg) := by rg []
  have mS : ∀ cl : List Green × List Green, Mono (seq [map (fun rest => cl.1 ++ [.node .BLOCK_IF_THEN (cl.2 ++ rest)]) (seq [many dbg (retry dbg ins []), rParen dbg]),
      foldedElse dbg ins, rParen dbg]) := fun cl => mono_seq_cons (mono_map r1.mono) (mono_seq_cons r2.mono (mono_seq_cons r3.mono mono_pure_nil))
  refine ⟨⟨mono_bind (ifCondsThen_spec hi.snd).1 mS, fun {s a s'} h he _ => ?_⟩, fun s a s' h he g hg hk => ?_⟩
  · obtain ⟨cl, s1, h1, h2⟩ := bind_ok h
    obtain ⟨k1, k2, k3⟩ := conds_reg hi h1 ((mS cl).ok h2 he)
    obtain ⟨x1, s2, y, h3, h4, rfl⟩ := seq_cons_ok h2
    obtain ⟨x2, s3, x3, h5, h6, rfl⟩ := seq_cons_ok h4
    rw [seq_one] at h6
    have e3 := r3.mono.ok h6 he
    have e2 := r2.mono.ok h5 e3
    obtain ⟨rest, h7, rfl⟩ := map_ok h3
    exact regL_append (regL_append k1 ⟨⟨trivial, regL_append k2 (r1.ok h7 e2 (by simp))⟩, trivial⟩)
      (regL_append (r2.ok h5 e3 (by simp)) (r3.ok h6 he (by simp)))
  · obtain ⟨cl, s1, h1, h2⟩ := bind_ok h
    have e1 := (mS cl).ok h2 he
    obtain ⟨k1, k2, r, k3⟩ := conds_reg hi h1 e1
    obtain ⟨x1, s2, y, h3, h4, rfl⟩ := seq_cons_ok h2
    obtain ⟨x2, s3, x3, h5, h6, rfl⟩ := seq_cons_ok h4
    rw [seq_one] at h6
    obtain ⟨rest, h7, rfl⟩ := map_ok h3
    rcases mem_strip_append hg with hg | hg
    · rcases mem_strip_append hg with hg | hg
      · obtain ⟨a, tr, e, hy, ht, _⟩ := ((ifCondsThen_spec hi.snd).2 _ _ _ h1 e1).1
        rw [e, stripL_append, stripL_signif tr, ht, List.map_nil, List.append_nil] at hg
        have := yield_kinds hy (K := instructionKinds) (by decide) g hg
        rcases hk with hk | hk <;> rw [hk] at this <;> simp [instructionKinds] at this
      · rw [stripL_one rfl, List.mem_singleton] at hg
        subst hg
        rw [k3, List.cons_append, begins_strip rfl]
        rfl
    rcases mem_strip_append hg with hg | hg
    · rcases optG_ok h5 with h5 | ⟨rfl, _⟩
      · obtain ⟨tr, s0, o, h13, h14, rfl⟩ := tp_ok (p := nodeP .BLOCK_IF_ELSE _) h5
        obtain ⟨c, rfl, _⟩ := openSeq h14
        rw [stripL_append, (blank_triv h13).1, List.nil_append, stripL_one rfl, List.mem_singleton] at hg
        subst hg
        rw [begins_strip rfl]
        rfl
      · simp [stripL] at hg
    · obtain ⟨t, ht⟩ := rParen_strip h6 he
      rw [ht, List.mem_singleton] at hg
      subst hg
      simp [Green.kind] at hk

theorem blockIf_run (hi : InsOk dbg ins) {s a s'} (h : blockIf dbg ins s = .ok a s') (he : s'.errs = []) : InsRun dbg s a s' := by
  have r0 := hi.rg
  have ti1 : Rg dbg false (instrsTill dbg ins [t!"end", t!"else"]) := rg_instrsTill hi
  have ti2 : Rg dbg false (instrsTill dbg ins [t!"end"]) := rg_instrsTill hi
  have r1 : Rg dbg false (seq [keyword t!"if", optG (tp dbg ident), optG (tp dbg (blockType dbg)),
      nodeP .BLOCK_IF_THEN (instrsTill dbg ins [t!"end", t!"else"]),
      optG (seq [trivias dbg, nodeP .BLOCK_IF_ELSE (seq [keyword t!"else", optG (tp dbg ident), instrsTill dbg ins [t!"end"]])]),
      must (tp dbg (keyword t!"end")), optG (tp dbg ident)]) := by
    rg [rg_blockType, ti1, ti2]
  have r1a : Rg dbg false (seq [must (tp dbg (keyword t!"end")), optG (tp dbg ident)]) := by rg []
  have r1b : Rg dbg false (seq [optG (seq [trivias dbg, nodeP .BLOCK_IF_ELSE (seq [keyword t!"else", optG (tp dbg ident), instrsTill dbg ins [t!"end"]])]), must (tp dbg (keyword t!"end")), optG (tp dbg ident)]) := by rg [ti2]
  obtain ⟨fa, fb⟩ := foldedArms_ok hi
  have r2 : Rg dbg false (seq [lParen, tp dbg (keyword t!"if"), optG (tp dbg ident), optG (tp dbg (blockType dbg)), foldedArms dbg ins]) := by
    rg [rg_blockType, fa]
  rcases alt2_clean (mono_node r1.mono) (mono_alt_one (mono_node r2.mono)) h he with h | ⟨_, h⟩
  · obtain ⟨cs, h1, rfl⟩ := node_ok h
    have hd : ∃ c r, s.rest = c :: r ∧ isLower c = true := by
      obtain ⟨x, s1, y, h2, h3, rfl⟩ := seq_cons_ok h1
      exact keyword_head h2
    exact ⟨⟨⟨unfoldedIf_loc hi h1 he r1a.mono r1b.mono, r1.ok h1 he (by simp)⟩, trivial⟩, fun r hr => (not_lower_paren hd hr).elim, _, _, rfl, by decide,
      fun h => absurd h (unlab_instr (by decide) (by decide) (by decide) (by decide))⟩
  · obtain ⟨cs', e', _⟩ := openSeq (h : nodeP .BLOCK_IF (seq (lParen :: _)) s = _)
    obtain ⟨cs, h1, rfl⟩ := node_ok (h : nodeP .BLOCK_IF _ s = _)
    cases e'
    have hloc : Loc .BLOCK_IF (.tok .L_PAREN ['('] :: cs') := by
      intro g hg hk
      refine ⟨fun _ => ⟨['('], stripL cs', by rw [stripL_tok rfl]⟩, fun _ => ?_⟩
      obtain ⟨x1, s1, y, h2, h3, e⟩ := seq_cons_ok h1
      obtain ⟨x2, s2, y, h4, h5, rfl⟩ := seq_cons_ok h3
      obtain ⟨x3, s3, y, h6, h7, rfl⟩ := seq_cons_ok h5
      obtain ⟨x4, s4, y, h8, h9, rfl⟩ := seq_cons_ok h7
      rw [seq_one] at h9
      rw [e] at hg
      obtain ⟨rfl, _⟩ := lParen_ok h2
      rcases mem_strip_append hg with hg | hg
      · rw [stripL_tok rfl, stripL_nil, List.mem_singleton] at hg
        subst hg
        simp [Green.kind] at hk
      rcases mem_strip_append hg with hg | hg
      · obtain ⟨tr, s0, o, h13, h14, rfl⟩ := tp_ok h4
        obtain ⟨rfl, _⟩ := keyword_ok h14
        rw [stripL_append, (blank_triv h13).1, List.nil_append, stripL_tok rfl, stripL_nil, List.mem_singleton] at hg
        subst hg
        simp [Green.kind] at hk
      rcases mem_strip_append hg with hg | hg
      · rcases optIdent h6 with ⟨tr, t, hb, rfl⟩ | ⟨rfl, _⟩
        · rw [stripL_append, hb, stripL_tok rfl, stripL_nil, List.nil_append, List.mem_singleton] at hg
          subst hg
          simp [Green.kind] at hk
        · simp [stripL] at hg
      rcases mem_strip_append hg with hg | hg
      · exfalso
        rcases optG_ok h8 with h8 | ⟨rfl, _⟩
        · obtain ⟨tr, s0, o, h13, h14, rfl⟩ := tp_ok h8
          have hbt : ∃ c, o = [.node .BLOCK_TYPE c] := by
            rcases alt_ok h14 with h | ⟨_, _, _, h⟩
            · obtain ⟨c, _, rfl⟩ := node_ok h; exact ⟨c, rfl⟩
            · obtain ⟨c, _, rfl⟩ := node_ok (h : nodeP .BLOCK_TYPE _ _ = _); exact ⟨c, rfl⟩
          obtain ⟨c, rfl⟩ := hbt
          rw [stripL_append, (blank_triv h13).1, stripL_node, stripL_nil, List.nil_append, List.mem_singleton] at hg
          subst hg
          simp [Green.kind] at hk
        · simp [stripL] at hg
      · exact fb _ _ _ h9 he g hg hk
    exact ⟨⟨⟨hloc, r2.ok h1 he (by simp)⟩, trivial⟩, fun _ _ => ⟨_, _, rfl⟩, _, _, rfl, by decide,
      fun h => absurd h (unlab_instr (by decide) (by decide) (by decide) (by decide))⟩

/-! ### Instructions -/

theorem blockInstr_run (hi : InsOk dbg ins) {s a s'} (h : blockInstr dbg ins s = .ok a s') (he : s'.errs = []) : InsRun dbg s a s' := by
  obtain ⟨w, s1, h1, h2⟩ := bind_ok h
  have k1 : ∀ {p : G} {s1 : St}, Mono p → p s1 = .ok a s' → peek (bind (opt (bind (lit ['(']) fun _ => trivias dbg)) fun _ => word) s = .ok w s1 → s1 = s :=
    fun hm hp hw => (peek_ok mono_optParenWord hw (hm.ok hp he)).1
  split at h2
  · have := k1 (snd_blockIf hi.snd).mono h2 h1
    subst this
    exact blockIf_run hi h2 he
  split at h2
  · have := k1 (snd_blockLoop hi.snd).mono h2 h1
    subst this
    exact blockLike_run hi (.inr rfl) (by rg []) h2 he
  split at h2
  · have := k1 (snd_blockBlock hi.snd).mono h2 h1
    subst this
    exact blockLike_run hi (.inl rfl) (by rg []) h2 he
  · cases h2

theorem insOk_instrF : ∀ fuel, InsOk dbg (instrF dbg fuel)
  | 0 => ⟨⟨(snd_instrF 0).mono, fun h => by cases h⟩, snd_instrF 0, (fun h => by cases h), fun h => by cases h⟩
  | fuel + 1 => by
    have hi := insOk_instrF fuel
    have key : ∀ {s a s'}, instrF dbg (fuel + 1) s = .ok a s' → s'.errs = [] → InsRun dbg s a s' := by
      intro s a s' h he
      unfold instrF at h
      rcases alt2_clean (snd_blockInstr hi.snd).mono (mono_alt_one (snd_plainInstr hi.snd (heads_instrF fuel)).mono) h he with h | ⟨_, h⟩
      · exact blockInstr_run hi h he
      · exact plainInstr_run hi (heads_instrF fuel) h he
    exact ⟨⟨(snd_instrF _).mono, fun h he _ => (key h he).reg⟩, snd_instrF _, fun h he => (key h he).fold, fun h he => (key h he).shape⟩

theorem insOk_instr : InsOk dbg (instr dbg) :=
  ⟨⟨snd_instr.mono, fun h he _ => (insOk_instrF _).rg.ok h he (by simp)⟩, snd_instr, fun h he => (insOk_instrF _).fold h he, fun h he => (insOk_instrF _).shape h he⟩

theorem rg_instr : Rg dbg false (instr dbg) := insOk_instr.rg

end Verif.Reg
