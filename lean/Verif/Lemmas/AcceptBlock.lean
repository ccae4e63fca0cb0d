import Verif.Lemmas.AcceptInstr
/-!
Helper lemmas: the parsers of blocks accept every block of the grammar, and the parser of instructions every instruction.
-/
namespace Verif
open P Spec

section
variable {n : Nat} {m : Bool} {F : List Look} {is : List Item} {p q ins : G} {ts : List Term}

theorem blockLike_eq {kw : Text} {k : Kind} : blockLike dbg ins kw k = nodeP k (alt [
    seq [keyword kw, optG (tp dbg ident), optG (tp dbg (blockType dbg)),
      instrsTill dbg ins [t!"end"], must (tp dbg (keyword t!"end")), optG (tp dbg ident)],
    seq [lParen, tp dbg (keyword kw), optG (tp dbg ident), optG (tp dbg (blockType dbg)),
      many dbg (retry dbg ins []), rParen dbg, optG (tp dbg ident)]]) := alt_node (ps := [_, _]) (by simp)

theorem kw_items {kw : Text} {js : List Item} (hk : reservedWords.contains kw = true) (h : js.all itemOk = true) : (oneW kw :: js).all itemOk = true := by
  rw [List.all_cons, Bool.and_eq_true]
  exact ⟨by simpa [itemOk, oneW, Item.terms, termOk] using hk, h⟩

theorem impl_block1 {kw : Text} (hk : reservedWords.contains kw = true) (hI : Ins n ins) :
    Impl n true afterInstr [oneW kw, optT .IDENT, optN .BLOCK_TYPE, instrs, oneW t!"end", optT .IDENT]
      (seq [keyword kw, optG (tp dbg ident), optG (tp dbg (blockType dbg)),
        instrsTill dbg ins [t!"end"], must (tp dbg (keyword t!"end")), optG (tp dbg ident)]) :=
  Impl.cons (impl_kw hk) (Impl.cons impl_optIdent (Impl.cons impl_optType (Impl.cons (impl_till (ends := [t!"end"]) hI.low)
    (Impl.cons (Impl.must (Impl.tp impl_kw)) (Impl.cons impl_optIdent Impl.nil)))))

theorem impl_block2 {kw : Text} (hk : reservedWords.contains kw = true) (hI : Ins n ins) :
    Impl n true noLabel [lp, oneW kw, optT .IDENT, optN .BLOCK_TYPE, instrs, rp, optT .IDENT]
      (seq [lParen, tp dbg (keyword kw), optG (tp dbg ident), optG (tp dbg (blockType dbg)),
        many dbg (retry dbg ins []), rParen dbg, optG (tp dbg ident)]) :=
  Impl.cons impl_lParen (Impl.cons (Impl.tp (impl_kw hk)) (Impl.cons impl_optIdent (Impl.cons impl_optType (Impl.cons (impl_instrs hI)
    (Impl.cons impl_rParen (Impl.cons impl_optIdent Impl.nil)))))) (kw_items hk (by chk))

theorem impl_block3 {kw : Text} (hk : reservedWords.contains kw = true) (hI : Ins n ins) :
    Impl n true afterTypeUse [lp, oneW kw, optT .IDENT, optN .BLOCK_TYPE, instrs, rp, oneT .IDENT]
      (seq [lParen, tp dbg (keyword kw), optG (tp dbg ident), optG (tp dbg (blockType dbg)),
        many dbg (retry dbg ins []), rParen dbg, optG (tp dbg ident)]) :=
  Impl.cons impl_lParen (Impl.cons (Impl.tp (impl_kw hk)) (Impl.cons impl_optIdent (Impl.cons impl_optType (Impl.cons (impl_instrs hI)
    (Impl.cons impl_rParen (Impl.cons (Impl.some (Impl.tp impl_ident)) Impl.nil)))))) (kw_items hk (by chk))

theorem After.type {g : Green} {rest : List Text} (h : After g rest) : Ok afterTypeUse rest := by
  rcases h with h | ⟨_, h, _⟩
  · exact h.mono (by decide)
  · exact h

theorem After.noLabel {g : Green} {rest : List Text} (h : After g rest) (hu : Unlabelled g) : Ok noLabel rest := by
  rcases h with h | ⟨_, _, h⟩
  · exact h.mono (by decide)
  · exact h hu

theorem After.instr {k k' : Kind} {t : Text} {r : List Green} {rest : List Text} (h : After (.node k (.tok k' t :: r)) rest) (hk : k' ≠ .L_PAREN) : Ok afterInstr rest := by
  rcases h with h | ⟨⟨_, _, _, e, hx⟩, _⟩
  · exact h
  · cases e
    exact absurd hx hk

theorem acc_blockLike {kw : Text} {k : Kind} {cs : List Green} {rest : List Text} (hk : reservedWords.contains kw = true)
    (hp : productions k = [[oneW kw, optT .IDENT, optN .BLOCK_TYPE, instrs, oneW t!"end", optT .IDENT],
      [lp, oneW kw, optT .IDENT, optN .BLOCK_TYPE, instrs, rp, optT .IDENT]]) (hb : k = .BLOCK_BLOCK ∨ k = .BLOCK_LOOP)
    (hI : Ins n ins) (h : WF (n + 1) (.node k cs)) (ha : After (.node k cs) rest) : Acc true (blockLike dbg ins kw k) [.node k cs] rest := by
  rw [blockLike_eq]
  refine acc_node ?_
  obtain ⟨p, hp', hm, hr⟩ := h.cases
  rw [hp] at hp'
  simp only [List.mem_cons, List.not_mem_nil, or_false] at hp'
  rcases hp' with rfl | rfl
  · obtain ⟨g1, r1, rfl, ⟨t1, ht1, hi1⟩, hmA⟩ := match_cons_one hm
    simp only [List.mem_singleton] at ht1; subst ht1
    cases is_word hi1
    exact acc_alt_left (impl_block1 hk hI _ rest hm (h.fewer ⟨_, _, .head _, wf_lex (h.kids _ (.head _)).1⟩) (ha.instr (by decide)))
  · have hf : ∀ c ∈ cs, WF n c := by
      obtain ⟨g1, r1, rfl, ⟨t1, ht1, hi1⟩, hmA⟩ := match_cons_one hm
      simp only [List.mem_singleton] at ht1; subst ht1
      obtain ⟨x, rfl⟩ := is_tok hi1
      exact h.fewer ⟨_, _, .head _, wf_lex (h.kids _ (.head _)).1⟩
    refine acc_alt_right (rejF_seq (rejF_keyword hk (F := [.openW kw]) (by rfl)) _ (firstP_sound hm (fun c hc => (hf c hc).1) hk)) (acc_alt_left ?_)
    by_cases hu : Unlabelled (.node k cs)
    · exact impl_block2 hk hI cs rest hm hf (ha.noLabel hu)
    · rcases match_last (is := [lp, oneW kw, optT .IDENT, optN .BLOCK_TYPE, instrs, rp]) hm with hm' | hm'
      · refine absurd (.block hb fun a t e => ?_) hu
        obtain ⟨u, v, e', _, hv⟩ := match_split (is := [lp, oneW kw, optT .IDENT, optN .BLOCK_TYPE, instrs]) hm'
        obtain ⟨g, r, rfl, ⟨t', ht', hi'⟩, hmB⟩ := match_cons_one hv
        cases hmB
        simp only [List.mem_singleton] at ht'; subst ht'
        obtain ⟨x, rfl⟩ := is_tok hi'
        rw [e] at e'
        have := (List.append_inj' e' rfl).2
        cases this
      · exact impl_block3 hk hI cs rest hm' hf ha.type

/-! ### `if` -/

theorem blockIf_eq : blockIf dbg ins = nodeP .BLOCK_IF (alt [
    seq [keyword t!"if", optG (tp dbg ident), optG (tp dbg (blockType dbg)),
      nodeP .BLOCK_IF_THEN (instrsTill dbg ins [t!"end", t!"else"]),
      optG (tp dbg (nodeP .BLOCK_IF_ELSE (seq [keyword t!"else", optG (tp dbg ident),
        instrsTill dbg ins [t!"end"]]))),
      must (tp dbg (keyword t!"end")), optG (tp dbg ident)],
    seq [lParen, tp dbg (keyword t!"if"), optG (tp dbg ident),
      optG (tp dbg (blockType dbg)),
      P.bind (ifCondsThen dbg ins) fun cl =>
        seq [P.map (fun rest => cl.1 ++ [.node .BLOCK_IF_THEN (cl.2 ++ rest)])
              (seq [many dbg (retry dbg ins []), rParen dbg]),
          optG (tp dbg (nodeP .BLOCK_IF_ELSE (seq [lParen, tp dbg (keyword t!"else"),
            many dbg (retry dbg ins []), rParen dbg]))),
          rParen dbg]]]) := alt_node (ps := [_, _]) (by simp)

/-- The arms of an `if` that is not folded. -/
theorem then1_kid {l : List Green} (h : WF n (.node .BLOCK_IF_THEN l)) (hb : ¬ BeginsWith .L_PAREN (.node .BLOCK_IF_THEN l)) : Match [instrs] l := by
  obtain ⟨p, hp, hm, _⟩ := h.cases
  simp only [productions, List.mem_cons, List.not_mem_nil, or_false] at hp
  rcases hp with rfl | rfl
  · exact hm
  · obtain ⟨g1, r1, rfl, ⟨t1, ht1, hi1⟩, hmA⟩ := match_cons_one hm
    simp only [List.mem_singleton] at ht1; subst ht1
    obtain ⟨x, rfl⟩ := is_tok hi1
    exact absurd ⟨_, _, _, rfl, rfl⟩ hb

theorem else1_kid {l : List Green} (h : WF n (.node .BLOCK_IF_ELSE l)) (hb : ¬ BeginsWith .L_PAREN (.node .BLOCK_IF_ELSE l)) :
    Match [oneW t!"else", optT .IDENT, instrs] l := by
  obtain ⟨p, hp, hm, _⟩ := h.cases
  simp only [productions, List.mem_cons, List.not_mem_nil, or_false] at hp
  rcases hp with rfl | rfl
  · exact hm
  · obtain ⟨g1, r1, rfl, ⟨t1, ht1, hi1⟩, hmA⟩ := match_cons_one hm
    simp only [List.mem_singleton] at ht1; subst ht1
    obtain ⟨x, rfl⟩ := is_tok hi1
    exact absurd ⟨_, _, _, rfl, rfl⟩ hb

theorem then2_kid {l : List Green} (h : WF n (.node .BLOCK_IF_THEN l)) (hb : BeginsWith .L_PAREN (.node .BLOCK_IF_THEN l)) :
    Match [lp, oneW t!"then", instrs, rp] l := by
  obtain ⟨p, hp, hm, _⟩ := h.cases
  simp only [productions, List.mem_cons, List.not_mem_nil, or_false] at hp
  rcases hp with rfl | rfl
  · obtain ⟨k', x, r, e, hx⟩ := hb
    cases e
    cases hm with
    | stop h1 => cases h1
    | more h1 h2 h3 =>
      obtain ⟨k, cs, rfl, hk⟩ := instr_kind ⟨_, h1, h2⟩
      rw [show k = .L_PAREN from hx] at hk
      exact absurd hk (by decide)
  · exact hm

theorem else2_kid {l : List Green} (h : WF n (.node .BLOCK_IF_ELSE l)) (hb : BeginsWith .L_PAREN (.node .BLOCK_IF_ELSE l)) :
    Match [lp, oneW t!"else", instrs, rp] l := by
  obtain ⟨p, hp, hm, _⟩ := h.cases
  simp only [productions, List.mem_cons, List.not_mem_nil, or_false] at hp
  rcases hp with rfl | rfl
  · obtain ⟨k', x, r, e, hx⟩ := hb
    cases e
    obtain ⟨g1, r1, e, ⟨t1, ht1, hi1⟩, hmA⟩ := match_cons_one hm
    cases e
    simp only [List.mem_singleton] at ht1; subst ht1
    cases is_word hi1
    cases hx
  · exact hm

theorem match_optN {k : Kind} {l : List Green} (h : Match [optN k] l) : l = [] ∨ ∃ cs, l = [.node k cs] := by
  cases h with
  | skip h => cases h; exact .inl rfl
  | opt h1 h2 h3 =>
    cases h3
    simp only [List.mem_singleton] at h1
    subst h1
    obtain ⟨cs, rfl⟩ := is_node h2
    exact .inr ⟨cs, rfl⟩

theorem acc_if1 {cs : List Green} {rest : List Text} (hI : Ins n ins) (hm : Match [oneW t!"if", optT .IDENT, optN .BLOCK_TYPE, oneN .BLOCK_IF_THEN, optN .BLOCK_IF_ELSE, oneW t!"end", optT .IDENT] cs)
    (hw : ∀ c ∈ cs, WF n c) (hr : ∀ g ∈ cs, g.kind = .BLOCK_IF_THEN ∨ g.kind = .BLOCK_IF_ELSE → ¬ BeginsWith .L_PAREN g) (hF : Ok afterInstr rest) :
    Acc true (seq [keyword t!"if", optG (tp dbg ident), optG (tp dbg (blockType dbg)),
      nodeP .BLOCK_IF_THEN (instrsTill dbg ins [t!"end", t!"else"]),
      optG (tp dbg (nodeP .BLOCK_IF_ELSE (seq [keyword t!"else", optG (tp dbg ident),
        instrsTill dbg ins [t!"end"]]))),
      must (tp dbg (keyword t!"end")), optG (tp dbg ident)]) cs rest := by
  obtain ⟨g1, r1, rfl, ⟨t1, ht1, hi1⟩, hmA⟩ := match_cons_one hm
  simp only [List.mem_singleton] at ht1; subst ht1
  cases is_word hi1
  obtain ⟨a2, r2, rfl, hm2, hmB⟩ := match_split (is := [optT .IDENT]) hmA
  obtain ⟨a3, r3, rfl, hm3, hmC⟩ := match_split (is := [optN .BLOCK_TYPE]) hmB
  obtain ⟨g4, r4, rfl, ⟨t4, ht4, hi4⟩, hmD⟩ := match_cons_one hmC
  simp only [List.mem_singleton] at ht4; subst ht4
  obtain ⟨l4, rfl⟩ := is_node hi4
  obtain ⟨a5, r5, rfl, hm5, hmE⟩ := match_split (is := [optN .BLOCK_IF_ELSE]) hmD
  have hw4 : WF n (.node .BLOCK_IF_THEN l4) := hw _ (by simp)
  have hm4 := then1_kid hw4 (hr _ (by simp) (.inl rfl))
  -- the end
  have iE : Impl n false afterInstr [oneW t!"end", optT .IDENT] (seq [must (tp dbg (keyword t!"end")), optG (tp dbg ident)]) :=
    Impl.cons (Impl.must (Impl.tp impl_kw)) (Impl.cons impl_optIdent Impl.nil)
  have hE := iE r5 rest hmE (fun g hg => hw g (by simp [hg])) hF
  have oE : Ok [.word t!"end"] (lexL r5 ++ rest) :=
    firstP_sound (p := [oneW t!"end", optT .IDENT]) hmE (fun g hg => (hw g (by simp [hg])).1) (by chk)
  -- the second arm
  have hD : Acc false (optG (tp dbg (nodeP .BLOCK_IF_ELSE (seq [keyword t!"else", optG (tp dbg ident), instrsTill dbg ins [t!"end"]])))) a5 (lexL r5 ++ rest) ∧
      Ok [.word t!"end", .word t!"else"] (lexL a5 ++ (lexL r5 ++ rest)) := by
    rcases match_optN hm5 with rfl | ⟨l5, rfl⟩
    · exact ⟨acc_optG_none (rejF_tp (rejF_node (rejF_seq (rejF_keyword (by chk) (F := [.word t!"end"]) (by chk)))) _ oE), oE.mono (by decide)⟩
    · have hw5 : WF n (.node .BLOCK_IF_ELSE l5) := hw _ (by simp)
      have hml := else1_kid hw5 (hr _ (by simp) (.inr rfl))
      refine ⟨acc_optG (acc_tp (acc_node ?_)), ?_⟩
      · have i5 : Impl n true [.word t!"end"] [oneW t!"else", optT .IDENT, instrs] (seq [keyword t!"else", optG (tp dbg ident), instrsTill dbg ins [t!"end"]]) :=
          Impl.cons impl_kw (Impl.cons impl_optIdent (Impl.cons (impl_till (ends := [t!"end"]) hI.low) Impl.nil))
        exact i5 l5 _ hml hw5.kids oE
      · rw [lexL_cons, lexL_nil, List.append_nil, lexemes_kids]
        exact (firstP_sound hml (fun g hg => (hw5.kids g hg).1) (by chk)).mono (by decide)
  -- the first arm
  have hC : Acc false (nodeP .BLOCK_IF_THEN (instrsTill dbg ins [t!"end", t!"else"])) [.node .BLOCK_IF_THEN l4] (lexL (a5 ++ r5) ++ rest) := by
    rw [lexL_append, List.append_assoc]
    have i4 : Impl n false [.word t!"end", .word t!"else"] [instrs] (instrsTill dbg ins [t!"end", t!"else"]) := impl_till (ends := [t!"end", t!"else"]) hI.low
    exact acc_node (i4 l4 _ hm4 hw4.kids hD.2)
  have oC : Ok (firsts [.word t!"end", .word t!"else"] [instrs]) (lexL (.node .BLOCK_IF_THEN l4 :: (a5 ++ r5)) ++ rest) := by
    rw [lexL_cons, lexemes_kids, lexL_append, List.append_assoc, List.append_assoc]
    exact firsts_sound hD.2 hm4 (fun g hg => (hw4.kids g hg).1) (by chk)
  -- the type
  have i3 : Impl n false (firsts [.word t!"end", .word t!"else"] [instrs]) [optN .BLOCK_TYPE] (optG (tp dbg (blockType dbg))) := impl_optType
  have hB : Acc false (optG (tp dbg (blockType dbg))) a3 (lexL (.node .BLOCK_IF_THEN l4 :: (a5 ++ r5)) ++ rest) :=
    i3 a3 _ hm3 (fun g hg => hw g (by simp [hg])) oC
  have oB := firsts_sound oC hm3 (fun g hg => (hw g (by simp [hg])).1) (by chk)
  have i2 : Impl n false (firsts (firsts [.word t!"end", .word t!"else"] [instrs]) [optN .BLOCK_TYPE]) [optT .IDENT] (optG (tp dbg ident)) := impl_optIdent
  have hA : Acc false (optG (tp dbg ident)) a2 (lexL a3 ++ (lexL (.node .BLOCK_IF_THEN l4 :: (a5 ++ r5)) ++ rest)) :=
    i2 a2 _ hm2 (fun g hg => hw g (by simp [hg])) oB
  refine acc_seq_cons (gs := [.tok .KEYWORD t!"if"]) (acc_keyword (by chk)) ?_
  refine acc_seq_cons (gs := a2) (by rw [lexL_append, List.append_assoc]; exact hA) ?_
  refine acc_seq_cons (gs := a3) hB ?_
  refine acc_seq_cons (gs := [_]) hC ?_
  exact acc_seq_cons (gs := a5) hD.1 hE

/-- Conditions up to the `(then`. -/
theorem gives_conds (hI : Ins n ins) {rest : List Text} :
    ∀ l : List Green, Match [instrs] l → (∀ g ∈ l, WF n g) → ∀ t fuel, Lexes t (lexL l ++ ['('] :: t!"then" :: rest) → t.length < fuel →
      ∃ o tr lk t', Gives (repeatTillF dbg (retry dbg ins [])
          (P.bind (trivias dbg) fun tr => P.map (fun lk => (tr, lk)) (seq [lParen, tp dbg (keyword t!"then")])) fuel) t (o, (tr, lk)) t' ∧
        stripL o.flatten = l ∧ stripL tr = [] ∧ stripL lk = [.tok .L_PAREN ['('], .tok .KEYWORD t!"then"] ∧ Lexes t' rest ∧ t'.length < t.length
  | [], _, _, t, fuel, ht, hf => by
    obtain ⟨fuel, rfl⟩ : ∃ k, fuel = k + 1 := ⟨fuel - 1, by omega⟩
    obtain ⟨tr, t1, g1, b1, r1, n1⟩ := gives_trivias (dbg := dbg) ht
    have ha : Acc true (seq [lParen, tp dbg (keyword t!"then")]) [.tok .L_PAREN ['('], .tok .KEYWORD t!"then"] rest :=
      acc_seq_cons (gs := [_]) (hs := [_]) acc_lParen (acc_seq_cons (gs := [_]) (hs := []) (acc_tp (acc_keyword (by chk))) acc_seq_nil)
    obtain ⟨lk, t2, g2, s2, l2, n2, k2⟩ := ha t1 r1
    have := k2 (by decide)
    exact ⟨[], tr, lk, t2, gives_repeatTill_done (gives_bind g1 (gives_map g2)), rfl, stripL_blank b1, s2, l2, by omega⟩
  | g :: l, hm, hw, t, fuel, ht, hf => by
    obtain ⟨fuel, rfl⟩ : ∃ k, fuel = k + 1 := ⟨fuel - 1, by omega⟩
    cases hm with
    | stop h1 => cases h1
    | more h1 h2 h3 =>
      have hE : Ok [.openW t!"then"] (['('] :: t!"then" :: rest) := ⟨_, .head _, rfl, rest, rfl⟩
      have hn : Ok (firsts [.openW t!"then"] [instrs]) (lexL l ++ ['('] :: t!"then" :: rest) := firsts_sound hE h3 (fun x hx => (hw x (.tail _ hx)).1) (by chk)
      have hfirst : Ok (instrTerms.flatMap firstT) (lexL (g :: l) ++ ['('] :: t!"then" :: rest) := by
        rw [lexL_cons, List.append_assoc]
        exact (first_sound (hw g (.head _)).1 _ h2 (List.all_eq_true.mp (by decide) _ h1) _).mono fun a ha => List.mem_flatMap.mpr ⟨_, h1, ha⟩
      have ha : Acc false (retry dbg ins []) [g] (lexL l ++ ['('] :: t!"then" :: rest) :=
        acc_retry (hI.low [g] _ (.one h1 h2 .nil) (by simpa using hw g (.head _)) (hn.mono (by decide)))
      obtain ⟨o1, t1, g1, s1, l1, n1, k1⟩ := ha t (by rw [lexL_cons, lexL_nil, List.append_nil, ← List.append_assoc, ← lexL_cons]; exact ht)
      have hlt := k1 (by rw [lexL_cons, lexL_nil, List.append_nil]; exact lex_ne (hw g (.head _)).1 h2 (List.all_eq_true.mp (by decide) _ h1))
      obtain ⟨o2, tr, lk, t2, g2, s2, b2, e2, l2, n2⟩ := gives_conds hI l h3 (fun x hx => hw x (.tail _ hx)) t1 fuel l1 (by omega)
      refine ⟨o1 :: o2, tr, lk, t2, gives_repeatTill_more ?_ g1 hlt g2, by rw [List.flatten_cons, stripL_append, s1, s2]; rfl, b2, e2, l2, by omega⟩
      obtain ⟨tr', t3, g3, b3, r3, n3⟩ := gives_trivias (dbg := dbg) ht
      exact refuses_bind2 g3 (refuses_map (rejF_paren (kw := t!"then") (ps := []) (by chk) (by chk) _ hfirst t3 r3))

theorem acc_if2 {cs : List Green} {rest : List Text} (hI : Ins n ins)
    (hm : Match [lp, oneW t!"if", optT .IDENT, optN .BLOCK_TYPE, instrs, oneN .BLOCK_IF_THEN, optN .BLOCK_IF_ELSE, rp] cs)
    (hw : ∀ c ∈ cs, WF n c) (hr : ∀ g ∈ cs, g.kind = .BLOCK_IF_THEN ∨ g.kind = .BLOCK_IF_ELSE → BeginsWith .L_PAREN g) :
    Acc true (seq [lParen, tp dbg (keyword t!"if"), optG (tp dbg ident),
      optG (tp dbg (blockType dbg)),
      P.bind (ifCondsThen dbg ins) fun cl =>
        seq [P.map (fun rest => cl.1 ++ [.node .BLOCK_IF_THEN (cl.2 ++ rest)])
              (seq [many dbg (retry dbg ins []), rParen dbg]),
          optG (tp dbg (nodeP .BLOCK_IF_ELSE (seq [lParen, tp dbg (keyword t!"else"),
            many dbg (retry dbg ins []), rParen dbg]))),
          rParen dbg]]) cs rest := by
  obtain ⟨g0, r0, rfl, ⟨t0, ht0, hi0⟩, hm0⟩ := match_cons_one hm
  simp only [List.mem_singleton] at ht0; subst ht0
  obtain ⟨x, rfl⟩ := is_tok hi0
  cases (show x = ['('] from (wf_tok (hw _ (.head _)).1).1)
  obtain ⟨g1, r1, rfl, ⟨t1, ht1, hi1⟩, hmA⟩ := match_cons_one hm0
  simp only [List.mem_singleton] at ht1; subst ht1
  cases is_word hi1
  obtain ⟨a2, r2, rfl, hm2, hmB⟩ := match_split (is := [optT .IDENT]) hmA
  obtain ⟨a3, r3, rfl, hm3, hmC⟩ := match_split (is := [optN .BLOCK_TYPE]) hmB
  obtain ⟨a4, r4, rfl, hm4, hmD⟩ := match_split (is := [instrs]) hmC
  obtain ⟨g5, r5, rfl, ⟨t5, ht5, hi5⟩, hmE⟩ := match_cons_one hmD
  simp only [List.mem_singleton] at ht5; subst ht5
  obtain ⟨l5, rfl⟩ := is_node hi5
  obtain ⟨a6, r6, rfl, hm6, hmF⟩ := match_split (is := [optN .BLOCK_IF_ELSE]) hmE
  obtain ⟨g7, r7, rfl, ⟨t7, ht7, hi7⟩, hmG⟩ := match_cons_one hmF
  cases hmG
  simp only [List.mem_singleton] at ht7; subst ht7
  obtain ⟨z, rfl⟩ := is_tok hi7
  cases (show z = [')'] from (wf_tok (hw (.tok .R_PAREN z) (by simp)).1).1)
  have hw5 : WF n (.node .BLOCK_IF_THEN l5) := hw _ (by simp)
  have hm5 := then2_kid hw5 (hr _ (by simp) (.inl rfl))
  -- the first arm
  obtain ⟨y0, s0, rfl, ⟨u0, hu0, hv0⟩, hn0⟩ := match_cons_one hm5
  simp only [List.mem_singleton] at hu0; subst hu0
  obtain ⟨x, rfl⟩ := is_tok hv0
  cases (show x = ['('] from (wf_tok (hw5.kids _ (.head _)).1).1)
  obtain ⟨y1, s1, rfl, ⟨u1, hu1, hv1⟩, hn1⟩ := match_cons_one hn0
  simp only [List.mem_singleton] at hu1; subst hu1
  cases is_word hv1
  have hbody : Acc false (seq [many dbg (retry dbg ins []), rParen dbg]) s1 (lexL (a6 ++ [.tok .R_PAREN [')']]) ++ rest) := by
    obtain ⟨b, c, rfl, hb, hc⟩ := match_split (is := [instrs]) hn1
    have ib : Impl n false [.close] [instrs] (many dbg (retry dbg ins [])) := impl_instrs hI
    have ic : Impl n false [] [rp] (seq [rParen dbg]) := Impl.cons impl_rParen Impl.nil
    obtain ⟨y2, s2, rfl, ⟨u2, hu2, hv2⟩, hn2⟩ := match_cons_one hc
    cases hn2
    simp only [List.mem_singleton] at hu2; subst hu2
    obtain ⟨x, rfl⟩ := is_tok hv2
    cases (show x = [')'] from (wf_tok (hw5.kids (.tok .R_PAREN x) (by simp)).1).1)
    exact acc_seq_cons (ib b _ hb (fun g hg => hw5.kids g (by simp [hg])) ⟨.close, .head _, rfl, _, rfl⟩) (acc_seq_cons (gs := [_]) (hs := []) acc_rParen acc_seq_nil)
  -- the second arm
  have helse : Acc false (seq [optG (tp dbg (nodeP .BLOCK_IF_ELSE (seq [lParen, tp dbg (keyword t!"else"),
            many dbg (retry dbg ins []), rParen dbg]))), rParen dbg]) (a6 ++ [.tok .R_PAREN [')']]) rest := by
    refine acc_seq_cons ?_ (acc_seq_cons (gs := [_]) (hs := []) acc_rParen acc_seq_nil)
    rcases match_optN hm6 with rfl | ⟨l6, rfl⟩
    · exact acc_optG_none (rejF_tp (rejF_node (rejF_paren (F := [.close]) (by chk) (by chk))) _ ⟨.close, .head _, rfl, _, rfl⟩)
    · have hw6 : WF n (.node .BLOCK_IF_ELSE l6) := hw _ (by simp)
      have hml := else2_kid hw6 (hr _ (by simp) (.inr rfl))
      refine acc_optG (acc_tp (acc_node ?_))
      have i6 : Impl n true [.close] [lp, oneW t!"else", instrs, rp] (seq [lParen, tp dbg (keyword t!"else"), many dbg (retry dbg ins []), rParen dbg]) :=
        Impl.cons impl_lParen (Impl.cons (Impl.tp impl_kw) (Impl.cons (impl_instrs hI) (Impl.cons impl_rParen Impl.nil)))
      exact i6 l6 _ hml hw6.kids ⟨.close, .head _, rfl, _, rfl⟩
  -- everything after the type
  have hT : lexL (a4 ++ .node .BLOCK_IF_THEN (.tok .L_PAREN ['('] :: .tok .KEYWORD t!"then" :: s1) :: (a6 ++ [.tok .R_PAREN [')']])) ++ rest =
      lexL a4 ++ ['('] :: t!"then" :: (lexL s1 ++ (lexL (a6 ++ [.tok .R_PAREN [')']]) ++ rest)) := by
    rw [lexL_append, lexL_cons, lexemes_kids, lexL_cons, lexL_cons]
    simp only [List.append_assoc]
    rfl
  have htail : Acc false (P.bind (ifCondsThen dbg ins) fun cl =>
        seq [P.map (fun rest => cl.1 ++ [.node .BLOCK_IF_THEN (cl.2 ++ rest)])
              (seq [many dbg (retry dbg ins []), rParen dbg]),
          optG (tp dbg (nodeP .BLOCK_IF_ELSE (seq [lParen, tp dbg (keyword t!"else"),
            many dbg (retry dbg ins []), rParen dbg]))),
          rParen dbg]) (a4 ++ .node .BLOCK_IF_THEN (.tok .L_PAREN ['('] :: .tok .KEYWORD t!"then" :: s1) :: (a6 ++ [.tok .R_PAREN [')']])) rest := by
    intro t ht
    have ht' := ht.lexes
    rw [hT] at ht'
    obtain ⟨o, tr, lk, t1, g1, e1, e2, e3, l1, n1⟩ := gives_conds (dbg := dbg) hI a4 hm4 (fun g hg => hw g (by simp [hg])) t (t.length + 1) ht' (by omega)
    obtain ⟨ob, t2, g2, e4, l2, n2, _⟩ := hbody t1 l1
    obtain ⟨oe, t3, g3, e5, l3, n3, _⟩ := helse t2 l2
    have gc : Gives (ifCondsThen dbg ins) t (o.flatten ++ tr, lk) t1 := gives_map (f := fun r : List (List Green) × (List Green × List Green) => (r.1.flatten ++ r.2.1, r.2.2)) (a := (o, (tr, lk))) (fun pos errs => g1 pos errs)
    refine ⟨_, t3, gives_bind gc (gives_bind (gives_map g2) (gives_map g3)), ?_, l3, by omega, fun _ => by omega⟩
    simp only [stripL_append, e1, e2, e5, stripL, strip, isBlank, e3, e4, List.append_nil, List.append_assoc]
    simp
  have oT : Ok (firsts [.openW t!"then"] [instrs]) (lexL (a4 ++ .node .BLOCK_IF_THEN (.tok .L_PAREN ['('] :: .tok .KEYWORD t!"then" :: s1) :: (a6 ++ [.tok .R_PAREN [')']])) ++ rest) := by
    rw [hT]
    exact firsts_sound (F := [.openW t!"then"]) ⟨_, .head _, rfl, _, rfl⟩ hm4 (fun g hg => (hw g (by simp [hg])).1) (by chk)
  have i3 : Impl n false (firsts [.openW t!"then"] [instrs]) [optN .BLOCK_TYPE] (optG (tp dbg (blockType dbg))) := impl_optType
  have hB := i3 a3 _ hm3 (fun g hg => hw g (by simp [hg])) oT
  have oB := firsts_sound oT hm3 (fun g hg => (hw g (by simp [hg])).1) (by chk)
  have i2 : Impl n false (firsts (firsts [.openW t!"then"] [instrs]) [optN .BLOCK_TYPE]) [optT .IDENT] (optG (tp dbg ident)) := impl_optIdent
  have hA := i2 a2 _ hm2 (fun g hg => hw g (by simp [hg])) oB
  refine acc_seq_cons (gs := [_]) acc_lParen ?_
  refine acc_seq_cons (gs := [.tok .KEYWORD t!"if"]) (acc_tp (acc_keyword (by chk))) ?_
  refine acc_seq_cons (gs := a2) (by rw [lexL_append, List.append_assoc]; exact hA) ?_
  refine acc_seq_cons (gs := a3) hB ?_
  have := acc_seq_cons (gs := a4 ++ .node .BLOCK_IF_THEN (.tok .L_PAREN ['('] :: .tok .KEYWORD t!"then" :: s1) :: (a6 ++ [.tok .R_PAREN [')']])) (hs := []) htail acc_seq_nil
  rwa [List.append_nil] at this

theorem acc_blockIf {cs : List Green} {rest : List Text} (hI : Ins n ins) (h : WF (n + 1) (.node .BLOCK_IF cs)) (ha : After (.node .BLOCK_IF cs) rest) :
    Acc true (blockIf dbg ins) [.node .BLOCK_IF cs] rest := by
  rw [blockIf_eq]
  refine acc_node ?_
  obtain ⟨p, hp, hm, hr⟩ := h.cases
  simp only [productions, List.mem_cons, List.not_mem_nil, or_false] at hp
  have hr1 := hr.1
  rcases hp with rfl | rfl
  · obtain ⟨g1, r1, rfl, ⟨t1, ht1, hi1⟩, hmA⟩ := match_cons_one hm
    simp only [List.mem_singleton] at ht1; subst ht1
    cases is_word hi1
    refine acc_alt_left (acc_if1 hI hm (h.fewer ⟨_, _, .head _, wf_lex (h.kids _ (.head _)).1⟩) ?_ (ha.instr (by decide)))
    intro g hg hk hb
    obtain ⟨t, r, e⟩ := (hr1 g hg hk).mp hb
    cases e
  · obtain ⟨g1, r1, rfl, ⟨t1, ht1, hi1⟩, hmA⟩ := match_cons_one hm
    simp only [List.mem_singleton] at ht1; subst ht1
    obtain ⟨x, rfl⟩ := is_tok hi1
    have hf := h.fewer ⟨_, _, .head _, wf_lex (h.kids _ (.head _)).1⟩
    refine acc_alt_right (rejF_seq (rejF_keyword (by chk) (F := [.openW t!"if"]) (by chk)) _ (firstP_sound hm (fun c hc => (hf c hc).1) (by chk)))
      (acc_alt_left (acc_if2 hI hm hf ?_))
    intro g hg hk
    exact (hr1 g hg hk).mpr ⟨_, _, rfl⟩

/-! ### All instructions -/

/-- Choosing by the keyword of a block. -/
theorem gives_blockWord {w t : Text} {ws r : List Text} (ht : Rdy t ws) (hw : IsWord w) (e : ws = w :: r ∨ ws = ['('] :: w :: r) :
    Gives (peek (P.bind (opt (P.bind (lit ['(']) fun _ => trivias dbg)) fun _ => word)) t w t := by
  rcases e with rfl | rfl
  · obtain ⟨t', rfl, a, _⟩ := ht.at_word (word_wasm hw)
    refine gives_peek (t' := t') (gives_bind (gives_opt_none (refuses_bind (lit_refuses1 _ ?_))) (gives_word hw a))
    obtain ⟨c, x, rfl, hc, _⟩ := hw
    intro d y e
    cases e
    have := List.all_eq_true.mp (show (lowers.all fun c => !(c == '(')) = true by decide) c hc
    simpa using this
  · obtain ⟨t1, rfl, l1⟩ := ht.at_lpar
    obtain ⟨tr, t2, g2, b2, r2, n2⟩ := gives_trivias (dbg := dbg) l1
    obtain ⟨t3, rfl, a3, l3⟩ := r2.at_word (word_wasm hw)
    exact gives_peek (gives_bind (gives_opt (gives_bind (gives_lit1 '(') g2)) (gives_word hw a3))

theorem acc_ofWord {f : Text → G} {w : Text} {gs : List Green} {rest r : List Text} (hw : IsWord w)
    (e : lexL gs ++ rest = w :: r ∨ lexL gs ++ rest = ['('] :: w :: r) (h : Acc true (f w) gs rest) :
    Acc true (P.bind (peek (P.bind (opt (P.bind (lit ['(']) fun _ => trivias dbg)) fun _ => word)) f) gs rest := by
  intro t ht
  obtain ⟨o, t4, g4, hh⟩ := h _ ht
  exact ⟨o, t4, gives_bind (gives_blockWord ht hw e) g4, hh⟩

/-- What a block begins with. -/
theorem block_word {k : Kind} {kw : Text} {cs : List Green} (h : WellFormed (.node k cs)) (hf : firstN k = [.word kw, .openW kw]) (rest : List Text) :
    ∃ r, lexL [.node k cs] ++ rest = kw :: r ∨ lexL [.node k cs] ++ rest = ['('] :: kw :: r := by
  obtain ⟨a, ha, _, hh⟩ := first_sound h (.node k) rfl (by simp [termOk, firstT, hf]) rest
  rw [lexL_cons, lexL_nil, List.append_nil]
  rw [firstT, hf] at ha
  simp only [List.mem_cons, List.not_mem_nil, or_false] at ha
  rcases ha with rfl | rfl
  · obtain ⟨r, hh⟩ := hh
    exact ⟨r, .inl hh⟩
  · obtain ⟨r, hh⟩ := hh
    exact ⟨r, .inr hh⟩

theorem plain_word {cs : List Green} (h : WellFormed (.node .PLAIN_INSTR cs)) (rest : List Text) :
    ∃ w r, InstrWord w ∧ (lexL [.node .PLAIN_INSTR cs] ++ rest = w :: r ∨ lexL [.node .PLAIN_INSTR cs] ++ rest = ['('] :: w :: r) := by
  obtain ⟨a, ha, _, hh⟩ := first_sound h (.node .PLAIN_INSTR) rfl (by decide) rest
  rw [lexL_cons, lexL_nil, List.append_nil]
  simp only [firstT, firstN, List.mem_cons, List.not_mem_nil, or_false] at ha
  rcases ha with rfl | rfl
  · obtain ⟨w, r, hh, hw⟩ := hh
    exact ⟨w, r, hw, .inr hh⟩
  · obtain ⟨w, r, hh, hw⟩ := hh
    exact ⟨w, r, hw, .inl hh⟩

theorem rejF_instrStep : RejF true (alt [blockInstr dbg ins, plainInstr dbg ins]) [.close, .ident, .num, .str, .eof] := by
  have hword : ∀ ws, Ok [.close, .ident, .num, .str, .eof] ws → ∀ t, Rdy t ws → ∀ c x, t = c :: x → isLower c = false ∧ c ≠ '(' := by
    rintro ws ⟨a, ha, hf, hh⟩ t ht c x e
    have hc := Look.head ht hh hf c x e
    have : ([Look.close, .ident, .num, .str, .eof].all fun a => a.chars.all fun c => !isLower c && !(c == '(')) = true := by decide
    have := List.all_eq_true.mp (List.all_eq_true.mp this a ha) c hc
    simpa using this
  refine rejF_alt ?_ (rejF_alt (rejF_alt (rejF_node (rejF_seq (rejF_lParen (by chk)))) (rejF_alt (rejF_node (rejF_seq ?_)) rejF_alt_nil)) rejF_alt_nil)
  · intro ws hw t ht
    refine refuses_bind (refuses_peek (refuses_bind2 (gives_opt_none (refuses_bind (lit_refuses1 _ ?_))) (refuses_word ?_)))
    · intro d r e
      simpa using (hword ws hw t ht d r e).2
    · intro d r e
      exact (hword ws hw t ht d r e).1
  · intro ws hw t ht
    exact refuses_tokP (refuses_context (refuses_word fun d r e => (hword ws hw t ht d r e).1))

/-- The parser of instructions accepts every instruction. -/
theorem ins_all : ∀ n, Ins n (instrF dbg (n + 1))
  | 0 => ⟨fun g rest hw hg _ => by
      obtain ⟨t, ht, hi⟩ := hg
      obtain ⟨k, cs, rfl, hk⟩ := instr_kind ⟨t, ht, hi⟩
      have h1 := hw.2 k cs rfl
      have h2 := lex_ne hw.1 hi (List.all_eq_true.mp (show (instrTerms.all termOk) = true by decide) t ht)
      rw [lexemes_kids] at h2
      exact absurd (List.length_eq_zero_iff.mp (by omega)) h2, rejF_instrStep⟩
  | n + 1 => by
    have hI := ins_all (dbg := dbg) n
    refine ⟨fun g rest hw hg ha => ?_, rejF_instrStep⟩
    obtain ⟨t, ht, hi⟩ := hg
    simp only [instrTerms, List.mem_cons, List.not_mem_nil, or_false] at ht
    rcases ht with rfl | rfl | rfl | rfl
    · obtain ⟨cs, rfl⟩ := is_node hi
      refine acc_alt_right ?_ (acc_alt_left (acc_plain hI hw ha))
      obtain ⟨w, r, hww, e⟩ := plain_word hw.1 rest
      intro t ht
      refine refuses_bind2 (gives_blockWord ht hww.1 e) ?_
      have h1 : w ≠ t!"if" := fun e => hww.2.1 (by rw [e]; decide)
      have h2 : w ≠ t!"loop" := fun e => hww.2.1 (by rw [e]; decide)
      have h3 : w ≠ t!"block" := fun e => hww.2.1 (by rw [e]; decide)
      rw [if_neg (by simpa using h1), if_neg (by simpa using h2), if_neg (by simpa using h3)]
      exact refuses_fail
    · obtain ⟨cs, rfl⟩ := is_node hi
      obtain ⟨r, e⟩ := block_word hw.1 rfl rest
      exact acc_alt_left (acc_ofWord (reserved_word (by decide)) e (acc_blockLike (by chk) rfl (.inl rfl) hI hw ha))
    · obtain ⟨cs, rfl⟩ := is_node hi
      obtain ⟨r, e⟩ := block_word hw.1 rfl rest
      exact acc_alt_left (acc_ofWord (reserved_word (by decide)) e (acc_blockLike (by chk) rfl (.inr rfl) hI hw ha))
    · obtain ⟨cs, rfl⟩ := is_node hi
      obtain ⟨r, e⟩ := block_word hw.1 rfl rest
      exact acc_alt_left (acc_ofWord (reserved_word (by decide)) e (acc_blockIf hI hw ha))

/-- A text is at least as long as the list of its tokens. -/
theorem Spec.Lexes.len {t : Text} {ws : List Text} (h : Lexes t ws) : ws.length ≤ t.length := by
  induction h with
  | nil => exact Nat.le_refl _
  | blank _ _ _ ih => simp only [List.length_cons]; omega
  | line _ _ _ _ _ ih => simp only [List.length_cons, List.length_append]; omega
  | block _ _ _ ih => simp only [List.length_append]; omega
  | lpar _ _ ih => simp only [List.length_cons]; omega
  | rpar _ ih => simp only [List.length_cons]; omega
  | str s hs _ _ ih =>
    obtain ⟨b, _, rfl⟩ := hs
    simp only [List.length_cons, List.length_append]; omega
  | word w hw _ _ _ ih =>
    have := List.length_pos_iff.mpr hw
    simp only [List.length_cons, List.length_append]; omega

theorem ins_instr : Ins n (instr dbg) := by
  constructor
  · intro g rest hw hg ha t ht
    have hlen := ht.lexes.len
    have hw' : WF t.length g := ⟨hw.1, fun k cs e => by
      subst e
      rw [lexL_cons, lexL_nil, List.append_nil, lexemes_kids, List.length_append] at hlen
      omega⟩
    obtain ⟨o, t', g', hh⟩ := (ins_all (dbg := dbg) t.length).acc g rest hw' hg ha t ht
    exact ⟨o, t', fun pos errs => g' pos errs, hh⟩
  · intro ws hw t ht pos errs
    exact (ins_all (dbg := dbg) t.length).rej ws hw t ht pos errs

end

end Verif
