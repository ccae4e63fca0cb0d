import Verif.Lemmas.RegularInstr
/-!
Helper lemmas: what `Spec.Regular` requires beyond the productions holds of the nodes a run without errors builds (fields of
modules and whole trees).
-/
namespace Verif.Reg
open P Spec

variable {dbg b : Bool} {p q ins : G}

/-- A keyword in parentheses, with two elements at least. -/
theorem openTwo {kw : Text} {ps : List G} {s a s'} (h : seq (lParen :: tp dbg (keyword kw) :: ps) s = .ok a s') :
    ∃ r, stripL a = .tok .L_PAREN ['('] :: .tok .KEYWORD kw :: r := by
  obtain ⟨x, s1, y, h2, h3, rfl⟩ := seq_cons_ok h
  obtain ⟨rfl, _⟩ := lParen_ok h2
  obtain ⟨x, s2, y, h4, h5, rfl⟩ := seq_cons_ok h3
  obtain ⟨tr, s3, o, h6, h7, rfl⟩ := tp_ok h4
  obtain ⟨rfl, _⟩ := keyword_ok h7
  refine ⟨stripL y, ?_⟩
  rw [List.singleton_append, stripL_tok rfl, stripL_append, stripL_append, (blank_triv h6).1, stripL_tok rfl, stripL_nil]; rfl

theorem mono_lit {t : Text} : Mono (lit t) := by
  refine .of (fun s a s' h he => ?_) (fun s e s' h he => ?_) <;> unfold P.lit at h <;> split at h <;> cases h <;> exact he

theorem peekLit_ok {c : Char} {s a s'} (h : (bind (peek (lit [c])) fun _ => p) s = .ok a s') (he : s'.errs = []) (hp : Mono p) :
    p s = .ok a s' ∧ ∃ r, s.rest = c :: r := by
  obtain ⟨t, s1, h1, h2⟩ := bind_ok h
  obtain ⟨rfl, s2, h3⟩ := peek_ok mono_lit h1 (hp.ok h2 he)
  refine ⟨h2, ?_⟩
  unfold P.lit at h3
  split at h3
  · rename_i hp
    obtain ⟨r, hr⟩ := List.isPrefixOf_iff_prefix.mp hp
    exact ⟨r, hr.symm⟩
  · cases h3

/-- Instructions in parentheses with a keyword, or one folded instruction on its own. -/
theorem wrap_ok {k : Kind} {kw : Text} (hk : k = .OFFSET ∨ k = .ELEM_EXPR) (hkw : Rg dbg true (keyword kw)) {s a s'}
    (h : alt [nodeP k (seq [lParen, tp dbg (keyword kw), many dbg (retry dbg (instr dbg) []), rParen dbg]),
      nodeP k (bind (peek (lit ['('])) fun _ => instr dbg)] s = .ok a s') (he : s'.errs = []) :
    RegL a ∧ ∃ cs, a = [.node k cs] ∧ (Unlabelled (strip (.node k cs)) → NoId dbg s') := by
  have r1 : Rg dbg false (seq [lParen, tp dbg (keyword kw), many dbg (retry dbg (instr dbg) []), rParen dbg]) := by rg [hkw, rg_instr]
  have r2 : Rg dbg false (bind (peek (lit ['('])) fun _ => instr dbg) := rg_peekBind mono_lit fun _ => rg_instr
  have hloc : ∀ cs : List Green, (∀ g, stripL cs = [g] → g.kind ∈ instructionKinds → BeginsWith .L_PAREN g) → Loc k cs := by
    intro cs hc; rcases hk with rfl | rfl <;> exact hc
  rcases alt2_clean (mono_node r1.mono) (mono_alt_one (mono_node r2.mono)) h he with h | ⟨_, h⟩
  · obtain ⟨cs, h1, rfl⟩ := node_ok h
    obtain ⟨r, hr⟩ := openTwo h1
    refine ⟨⟨⟨hloc _ (fun g hg => by rw [hr] at hg; cases hg), r1.ok h1 he (by simp)⟩, trivial⟩, cs, rfl, fun hu => ?_⟩
    rw [strip_node, hr] at hu
    cases hu with
    | block h _ => rcases hk with rfl | rfl <;> rcases h with h | h <;> cases h
  · obtain ⟨cs, h1, rfl⟩ := node_ok (h : nodeP k _ s = _)
    obtain ⟨h2, r, hr⟩ := peekLit_ok h1 he rg_instr.mono
    have hreg := rg_instr.ok h2 he (by simp)
    obtain ⟨k1, c, rfl⟩ := insOk_instr.fold h2 he r hr
    obtain ⟨k', c', e, _, hu⟩ := insOk_instr.shape h2 he
    cases e
    refine ⟨⟨⟨hloc _ fun g hg hi => ?_, hreg⟩, trivial⟩, _, rfl, fun h => ?_⟩
    · rw [stripL_one rfl] at hg
      cases hg
      rw [begins_strip rfl]; rfl
    · rw [strip_node, stripL_one rfl] at h
      cases h with
      | block h _ => rcases hk with rfl | rfl <;> rcases h with h | h <;> cases h
      | inside _ h => exact hu h

theorem rg_elemExpr : Rg dbg false (elemExpr dbg) := ⟨snd_elemExpr.mono, fun h he _ => (wrap_ok (.inr rfl) (by rg []) h he).1⟩
theorem rg_offset : Rg dbg false (offset dbg) := ⟨snd_offset.mono, fun h he _ => (wrap_ok (.inl rfl) (by rg []) (context_ok h) he).1⟩

theorem offset_ok {s a s'} (h : offset dbg s = .ok a s') (he : s'.errs = []) :
    ∃ cs, a = [.node .OFFSET cs] ∧ (Unlabelled (strip (.node .OFFSET cs)) → NoId dbg s') := (wrap_ok (.inl rfl) (by rg []) (context_ok h) he).2

theorem rg_elemList : Rg dbg false (elemList dbg) := by unfold elemList; rg [rg_index, rg_elemExpr]

theorem headId_first {k k' : Kind} {t : Text} {l : List Green} : HeadId (.node k (.node .INDEX [.tok k' t] :: l)) → k' = .IDENT := by
  rintro ⟨t', r, h⟩
  simp only [Green.toks, Green.toksL, List.append_nil, List.singleton_append] at h
  cases h; rfl

theorem elemList_ok {s a s'} (h : elemList dbg s = .ok a s') (he : s'.errs = []) :
    ∃ cs, a = [.node .ELEM_LIST cs] ∧ (HeadId (strip (.node .ELEM_LIST cs)) → ∃ b s1, ident s = .ok b s1) := by
  unfold elemList at h
  have r0 : Rg dbg false (alt [keyword t!"func", index]) := by rg [rg_index]
  have r1 : Rg dbg false (seq [alt [keyword t!"func", index], many dbg (retryOnce dbg index [])]) := by rg [rg_index]
  have r2 : Rg dbg false (seq [refType, many dbg (retryOnce dbg (elemExpr dbg) [])]) := by rg [rg_elemExpr]
  have rm : Rg dbg false (many dbg (retryOnce dbg index [])) := by rg [rg_index]
  have rk : Rg dbg false (keyword t!"func") := by rg []
  have ri : Rg dbg false ident := by rg []
  have ru : Rg dbg false unsignedInt := by rg []
  rcases alt2_clean (mono_node r1.mono) (mono_alt_one (mono_node r2.mono)) h he with h | ⟨_, h⟩
  · obtain ⟨cs, h1, rfl⟩ := node_ok h
    refine ⟨cs, rfl, fun hh => ?_⟩
    obtain ⟨x, s1, y, h2, h3, rfl⟩ := seq_cons_ok h1
    rw [seq_one] at h3
    have e1 := rm.mono.ok h3 he
    rcases alt2_clean rk.mono (mono_alt_one (rg_index (dbg := dbg) (b := false)).mono) h2 e1 with h2 | ⟨_, h2⟩
    · obtain ⟨rfl, _⟩ := keyword_ok h2
      rw [strip_node, List.singleton_append, stripL_tok rfl] at hh
      exact absurd hh (not_headId_open (by decide))
    · obtain ⟨c, h4, rfl⟩ := node_ok (h2 : index s = _)
      rcases alt2_clean ri.mono (mono_alt_one ru.mono) (context_ok h4) e1 with h5 | ⟨_, h5⟩
      · exact ⟨_, _, h5⟩
      · obtain ⟨t, _, rfl⟩ := map_ok (h5 : unsignedInt s = _)
        rw [strip_node, List.singleton_append, stripL_node, stripL_tok rfl, stripL_nil] at hh
        exact absurd (headId_first hh) (by decide)
  · obtain ⟨cs, h1, rfl⟩ := node_ok (h : nodeP .ELEM_LIST _ s = _)
    refine ⟨cs, rfl, fun hh => ?_⟩
    obtain ⟨x, s1, y, h2, h3, rfl⟩ := seq_cons_ok h1
    obtain ⟨w, _, h4⟩ := verifyMap_ok (context_ok h2)
    split at h4
    · cases h4
      rw [strip_node, List.singleton_append, stripL_tok rfl] at hh
      exact absurd hh (not_headId_open (by decide))
    · cases h4

theorem notUnlab {g : Green} (h : g.kind ∉ [Kind.BLOCK_BLOCK, .BLOCK_LOOP, .OPERAND, .OFFSET]) : ¬ Unlabelled g := fun hu => by
  have := unlabelled_kind hu
  simp only [List.mem_cons, List.not_mem_nil, or_false] at h
  exact h this

theorem adj_one {x : Green} : Adj [x] := adj_cons (fun _ _ h => by cases h) adj_nil

/-- What follows the name of an element segment. -/
def elemTail (dbg : Bool) : G :=
  alt [seq [tp dbg (keyword t!"declare"), must (retryOnce dbg (elemList dbg) [])],
    tp dbg (elemList dbg),
    seq [optG (tp dbg (tableUse dbg)), must (retryOnce dbg (offset dbg) []), optG (retryOnce dbg (elemList dbg) [])]]

theorem rg_elemTail : Rg dbg false (elemTail dbg) := by unfold elemTail; rg [rg_elemList, rg_tableUse, rg_offset]

theorem elemTail_ok {s a s'} (h : elemTail dbg s = .ok a s') (he : s'.errs = []) :
    Adj (stripL a) ∧ (NoId dbg s → ∀ c r, stripL a = .node .ELEM_LIST c :: r → ¬ HeadId (.node .ELEM_LIST c)) := by
  unfold elemTail at h
  have r1 : Rg dbg false (seq [tp dbg (keyword t!"declare"), must (retryOnce dbg (elemList dbg) [])]) := by rg [rg_elemList]
  have r1b : Rg dbg false (must (retryOnce dbg (elemList dbg) [])) := by rg [rg_elemList]
  have r2 : Rg dbg false (tp dbg (elemList dbg)) := by rg [rg_elemList]
  have r3 : Rg dbg false (seq [optG (tp dbg (tableUse dbg)), must (retryOnce dbg (offset dbg) []), optG (retryOnce dbg (elemList dbg) [])]) := by rg [rg_elemList, rg_tableUse, rg_offset]
  have r3b : Rg dbg false (seq [must (retryOnce dbg (offset dbg) []), optG (retryOnce dbg (elemList dbg) [])]) := by rg [rg_elemList, rg_tableUse, rg_offset]
  have r3c : Rg dbg false (optG (retryOnce dbg (elemList dbg) [])) := by rg [rg_elemList]
  rcases alt2_clean r1.mono (mono_alt_cons r2.mono (mono_alt_one r3.mono)) h he with h | ⟨_, h⟩
  · obtain ⟨x, s1, y, h1, h2, rfl⟩ := seq_cons_ok h
    rw [seq_one] at h2
    obtain ⟨tr, s2, o, h3, h4, rfl⟩ := tp_ok h1
    obtain ⟨rfl, _⟩ := keyword_ok h4
    obtain ⟨tr2, s3, o2, h5, h6, rfl⟩ := retryOnce_ok (must_ok h2 he) he
    obtain ⟨c, rfl, _⟩ := elemList_ok h6 he
    rw [stripL_append, stripL_append, stripL_append, (blank_triv h3).1, (blank_triv h5).1, stripL_tok rfl, stripL_nil, stripL_one rfl, strip_node]
    refine ⟨?_, fun _ c r h => by cases h⟩
    exact adj_cons (fun _ _ _ h => by cases h) adj_one
  rcases alt2_clean r2.mono (mono_alt_one r3.mono) h he with h | ⟨_, h⟩
  · obtain ⟨tr, s2, o, h3, h4, rfl⟩ := tp_ok h
    obtain ⟨c, rfl, hc⟩ := elemList_ok h4 he
    rw [stripL_append, (blank_triv h3).1, stripL_one rfl, strip_node]
    refine ⟨adj_one, fun hn c' r h hh => ?_⟩
    cases h
    rw [strip_node] at hc
    obtain ⟨b, s4, hb⟩ := hc hh
    exact hn _ _ (tp_run h3 hb)
  · obtain ⟨x, s1, y, h1, h2, rfl⟩ := seq_cons_ok (h : seq _ s = _)
    obtain ⟨x2, s2, y2, h3, h4, rfl⟩ := seq_cons_ok h2
    rw [seq_one] at h4
    have e2 := r3c.mono.ok h4 he
    obtain ⟨tr, s3, o, h5, h6, rfl⟩ := retryOnce_ok (must_ok h3 e2) e2
    obtain ⟨c, rfl, hc⟩ := offset_ok h6 e2
    have hx : stripL x = [] ∨ ∃ c, stripL x = [.node .TABLE_USE c] := by
      rcases optG_ok h1 with h1 | ⟨rfl, _⟩
      · obtain ⟨tr, s3, o, h5, h6, rfl⟩ := tp_ok h1
        obtain ⟨c, _, rfl⟩ := node_ok (h6 : tableUse dbg _ = _)
        exact .inr ⟨_, by rw [stripL_append, (blank_triv h5).1, stripL_one rfl, strip_node]; rfl⟩
      · exact .inl stripL_nil
    have hy : Adj (.node .OFFSET (stripL c) :: stripL y2) := by
      rcases optG_ok h4 with h4 | ⟨rfl, _⟩
      · obtain ⟨tr, s4, o, h7, h8, rfl⟩ := retryOnce_ok h4 he
        obtain ⟨c', rfl, hc'⟩ := elemList_ok h8 he
        rw [stripL_append, (blank_triv h7).1, stripL_one rfl, List.nil_append]
        refine adj_cons (fun y r h hu hh => ?_) adj_one
        cases h
        obtain ⟨b, s5, hb⟩ := hc' hh
        rw [strip_node] at hc
        exact hc hu _ _ (tp_run h7 hb)
      · rw [stripL_nil]; exact adj_one
    have e : stripL (x ++ (tr ++ [.node .OFFSET c] ++ y2)) = stripL x ++ .node .OFFSET (stripL c) :: stripL y2 := by
      rw [stripL_append, stripL_append, stripL_append, (blank_triv h5).1, stripL_one rfl, strip_node]; rfl
    rw [e]
    rcases hx with hx | ⟨c', hx⟩ <;> rw [hx]
    · exact ⟨hy, fun _ c r h => by cases h⟩
    · exact ⟨adj_cons (fun _ _ _ h => absurd h (notUnlab (by simp [Green.kind]))) hy, fun _ c r h => by cases h⟩

theorem rg_moduleFieldElem : Rg dbg false (moduleFieldElem dbg) := by
  have r1 : Rg dbg false (seq [lParen, tp dbg (keyword t!"elem"), optG (tp dbg ident), elemTail dbg, rParen dbg]) := by rg [rg_elemTail]
  have r2 : Rg dbg false (rParen dbg) := by rg []
  refine ⟨snd_moduleFieldElem.mono, fun {s a s'} h he _ => ?_⟩
  obtain ⟨cs, h1, rfl⟩ := node_ok (h : nodeP _ _ s = _)
  refine ⟨⟨?_, r1.ok h1 he (by simp)⟩, trivial⟩
  obtain ⟨x1, s1, y, h2, h3, rfl⟩ := seq_cons_ok h1
  obtain ⟨x2, s2, y, h4, h5, rfl⟩ := seq_cons_ok h3
  obtain ⟨x3, s3, y, h6, h7, rfl⟩ := seq_cons_ok h5
  obtain ⟨x4, s4, y, h8, h9, rfl⟩ := seq_cons_ok h7
  rw [seq_one] at h9
  have e4 := r2.mono.ok h9 he
  obtain ⟨rfl, _⟩ := lParen_ok h2
  obtain ⟨tr, s0, o, h10, h11, rfl⟩ := tp_ok h4
  obtain ⟨rfl, _⟩ := keyword_ok h11
  obtain ⟨t', hr⟩ := rParen_strip h9 he
  obtain ⟨ha, hf⟩ := elemTail_ok h8 e4
  have e : stripL ([.tok .L_PAREN ['(']] ++ (tr ++ [.tok .KEYWORD t!"elem"] ++ (x3 ++ (x4 ++ y)))) =
      .tok .L_PAREN ['('] :: .tok .KEYWORD t!"elem" :: (stripL x3 ++ (stripL x4 ++ [.tok .R_PAREN t'])) := by
    rw [List.singleton_append, stripL_tok rfl, stripL_append, stripL_append, (blank_triv h10).1, stripL_tok rfl, stripL_nil, stripL_append, stripL_append, hr]; rfl
  have hadj : Adj (stripL x4 ++ [.tok .R_PAREN t']) := adj_snoc ha (by rw [headId_tok]; decide)
  rcases optIdent h6 with ⟨tr', t, hb, rfl⟩ | ⟨rfl, rfl, hn⟩
  · have e3 : stripL (tr' ++ [.tok .IDENT t]) = [.tok .IDENT t] := by rw [stripL_append, hb, stripL_tok rfl, stripL_nil]; rfl
    rw [e3] at e
    refine ⟨fun a b c r h => ?_, ?_⟩
    · rw [e] at h; cases h
    · rw [e]
      exact adj_cons (fun _ _ _ h => by cases h) (adj_cons (fun _ _ _ h => by cases h) (adj_cons (fun _ _ _ h => by cases h) hadj))
  · refine ⟨fun a b c r h => ?_, ?_⟩
    · rw [e, stripL_nil, List.nil_append] at h
      cases hx4 : stripL x4 with
      | nil => rw [hx4] at h; cases h
      | cons z l =>
        rw [hx4] at h
        cases h
        exact hf hn c l hx4
    · rw [e, stripL_nil, List.nil_append]
      exact adj_cons (fun _ _ _ h => by cases h) (adj_cons (fun _ _ _ h => by cases h) hadj)

/-! ### Other fields -/

theorem rg_trivAny {f : Char → G} (hf : ∀ c, Rg dbg b (f c)) : Rg dbg b (bind (peek (bind (trivias dbg) fun _ => any)) f) :=
  rg_peekBind mono_trivAny hf

theorem rg_elem : Rg dbg false (elem dbg) := by
  have h : Rg dbg false (bind (peek (bind (trivias dbg) fun _ => any)) fun c =>
      if c == '(' then many dbg (retryOnce dbg (elemExpr dbg) [])
      else if c == ')' then P.pure []
      else many dbg (retryOnce dbg index [])) := rg_trivAny fun c => by
    refine rg_ite ?_ (rg_ite ?_ ?_) <;> rg [rg_elemExpr, rg_index]
  unfold elem
  rg [h]

theorem rg_moduleFieldData : Rg dbg false (moduleFieldData dbg) := by unfold moduleFieldData; rg [rg_memUse, rg_offset]
theorem rg_moduleFieldExport : Rg dbg false (moduleFieldExport dbg) := by unfold moduleFieldExport; rg [rg_nameP, rg_exportDesc]
theorem rg_moduleFieldFunc : Rg dbg false (moduleFieldFunc dbg) := by
  unfold moduleFieldFunc; rg [rg_importP, rg_exportP, rg_typeUse, rg_localP, rg_instr]
theorem rg_moduleFieldGlobal : Rg dbg false (moduleFieldGlobal dbg) := by
  unfold moduleFieldGlobal; rg [rg_importP, rg_exportP, rg_globalType, rg_instr]
theorem rg_moduleFieldImport : Rg dbg false (moduleFieldImport dbg) := by
  unfold moduleFieldImport; rg [rg_moduleName, rg_nameP, rg_importDesc]
theorem rg_moduleFieldMemory : Rg dbg false (moduleFieldMemory dbg) := by
  have h : Rg dbg false (bind (peek (bind (trivias dbg) fun _ => any)) fun c =>
      if c == '(' then must (retryOnce dbg (dataP dbg) []) else must (retryOnce dbg (memoryType dbg) [])) := rg_trivAny fun c => by
    refine rg_ite ?_ ?_ <;> rg [rg_dataP, rg_memoryType]
  unfold moduleFieldMemory; rg [rg_importP, rg_exportP, h]
theorem rg_moduleFieldStart : Rg dbg false (moduleFieldStart dbg) := by unfold moduleFieldStart; rg [rg_index]
theorem rg_moduleFieldTable : Rg dbg false (moduleFieldTable dbg) := by
  unfold moduleFieldTable; rg [rg_importP, rg_exportP, rg_elem, rg_tableType]
theorem rg_moduleFieldType : Rg dbg false (moduleFieldType dbg) := by unfold moduleFieldType; rg [rg_funcType]

theorem rg_moduleField : Rg dbg false (moduleField dbg) := by
  unfold moduleField peekParenWord
  exact rg_context (rg_peekBind mono_parenWord fun w => rg_ite rg_moduleFieldFunc (rg_ite rg_moduleFieldType (rg_ite rg_moduleFieldExport
    (rg_ite rg_moduleFieldImport (rg_ite rg_moduleFieldStart (rg_ite rg_moduleFieldData (rg_ite rg_moduleFieldTable
    (rg_ite rg_moduleFieldMemory (rg_ite rg_moduleFieldGlobal (rg_ite rg_moduleFieldElem rg_fail))))))))))

theorem rg_moduleP : Rg dbg false (moduleP dbg) := by unfold moduleP; rg [rg_moduleField]

end Verif.Reg
