import Verif.Lemmas.AcceptBlock
/-!
Helper lemmas: the parsers of fields, modules and documents accept the instances of their productions.
-/
namespace Verif
open P Spec

section
variable {n : Nat} {m : Bool} {F : List Look} {is : List Item} {p q ins : G} {ts : List Term}

/-! ### Parts with instructions -/

/-- An instruction between parentheses. -/
theorem acc_foldedOnly {g : Green} {rest : List Text} (hw : WF n g) (hg : ∃ t ∈ instrTerms, t.is g) (hb : BeginsWith .L_PAREN g)
    (hF : Ok afterTypeUse rest) (hu : Unlabelled g → Ok noLabel rest) : Acc true (P.bind (peek (lit ['('])) fun _ => instr dbg) [g] rest := by
  intro t ht
  obtain ⟨o, t', g', hh⟩ := (ins_instr (dbg := dbg) (n := n)).acc g rest hw hg (.inr ⟨hb, hF, hu⟩) t ht
  obtain ⟨a, ha, _, hh'⟩ := folded_first hw.1 hg hb rest
  have : ∃ r, lexL [g] ++ rest = ['('] :: r := by
    rw [lexL_cons, lexL_nil, List.append_nil]
    simp only [List.mem_cons, List.not_mem_nil, or_false] at ha
    rcases ha with rfl | rfl | rfl | rfl
    · obtain ⟨w, r, e, _⟩ := hh'
      exact ⟨_, e⟩
    all_goals
      obtain ⟨r, e⟩ := hh'
      exact ⟨_, e⟩
  obtain ⟨r, e⟩ := this
  have ht' := ht
  rw [e] at ht'
  obtain ⟨t1, rfl, _⟩ := Rdy.at_lpar ht'
  exact ⟨o, t', gives_bind (gives_peek (gives_lit1 '(')) g', hh⟩

/-- An item that is a form or an instruction. -/
theorem acc_formOrInstr {k : Kind} {kw : Text} {cs : List Green} {rest : List Text} (hp : productions k = [[lp, oneW kw, instrs, rp], [.one instrTerms]])
    (hk : reservedWords.contains kw = true) (hkw : kw ≠ t!"block" ∧ kw ≠ t!"loop" ∧ kw ≠ t!"if")
    (h : WF n (.node k cs)) (hreg : ∀ g, cs = [g] → g.kind ∈ instructionKinds → BeginsWith .L_PAREN g)
    (hF : Ok afterTypeUse rest) (hu : ∀ g, cs = [g] → Unlabelled g → Ok noLabel rest) :
    Acc true (alt [nodeP k (seq [lParen, tp dbg (keyword kw), many dbg (retry dbg (instr dbg) []), rParen dbg]),
      nodeP k (P.bind (peek (lit ['('])) fun _ => instr dbg)]) [.node k cs] rest := by
  obtain ⟨p, hp', hm, hr⟩ := h.cases
  rw [hp] at hp'
  simp only [List.mem_cons, List.not_mem_nil, or_false] at hp'
  rcases hp' with rfl | rfl
  · refine acc_alt_left (acc_node ?_)
    have i : Impl n true afterTypeUse [lp, oneW kw, instrs, rp] (seq [lParen, tp dbg (keyword kw), many dbg (retry dbg (instr dbg) []), rParen dbg]) :=
      Impl.cons impl_lParen (Impl.cons (Impl.tp (impl_kw hk)) (Impl.cons (impl_instrs ins_instr) (Impl.cons impl_rParen Impl.nil))) (kw_items hk (by chk))
    exact i cs rest hm h.kids hF
  · obtain ⟨g, r, rfl, ht, hm'⟩ := match_cons_one hm
    cases hm'
    obtain ⟨k', cs', e, hk'⟩ := instr_kind ht
    have hb := hreg g rfl (by rw [e]; exact hk')
    refine acc_alt_right ?_ (acc_alt_left (acc_node (acc_foldedOnly (h.kids g (.head _)) ht hb hF (hu g rfl))))
    rw [lexL_cons, lexL_nil, List.append_nil, lexemes_kids, lexL_cons, lexL_nil, List.append_nil]
    refine rejF_node (rejF_paren hk ?_) _ (folded_first (h.kids g (.head _)).1 ht hb rest)
    simp [hkw.1.symm, hkw.2.1.symm, hkw.2.2.symm]

theorem acc_offset {cs : List Green} {rest : List Text} (h : WF n (.node .OFFSET cs)) (hF : Ok afterTypeUse rest)
    (hu : Unlabelled (.node .OFFSET cs) → Ok noLabel rest) : Acc true (offset dbg) [.node .OFFSET cs] rest := by
  obtain ⟨p, hp', hm, hr⟩ := h.cases
  exact acc_context (acc_formOrInstr rfl (by decide) (by decide) h hr.1 hF fun g e hg => hu (by rw [e]; exact .inside (.inr rfl) hg))

theorem impl_offset : Impl n true noLabel [oneN .OFFSET] (offset dbg) := by
  intro l rest hm hw hF
  obtain ⟨t, ht, g, rfl, hi⟩ := match_one hm
  simp only [List.mem_singleton] at ht; subst ht
  obtain ⟨cs, rfl⟩ := is_node hi
  exact acc_offset (hw _ (.head _)) (hF.mono fun a ha => List.mem_of_mem_erase ha) fun _ => hF

theorem rejF_offset (hF : (F.all fun a => a.chars.all fun c => !(c == '(')) = true := by chk) : RejF true (offset dbg) F := by
  refine rejF_context (rejF_alt (rejF_node (rejF_seq (rejF_lParen hF))) (rejF_alt (rejF_node ?_) rejF_alt_nil))
  intro ws hw t ht
  exact refuses_bind (refuses_peek (rejF_head (· == '(') lit_refuses1 hF ws hw t ht))

theorem impl_elemExpr : Impl n true noLabel [oneN .ELEM_EXPR] (elemExpr dbg) := by
  intro l rest hm hw hF
  obtain ⟨t, ht, g, rfl, hi⟩ := match_one hm
  simp only [List.mem_singleton] at ht; subst ht
  obtain ⟨cs, rfl⟩ := is_node hi
  obtain ⟨p, hp', hm, hr⟩ := (hw _ (.head _)).cases
  exact acc_formOrInstr rfl (by decide) (by decide) (hw _ (.head _)) hr.1 (hF.mono fun a ha => List.mem_of_mem_erase ha) fun _ _ _ => hF

theorem rejF_elemExpr (hF : (F.all fun a => a.chars.all fun c => !(c == '(')) = true := by chk) : RejF true (elemExpr dbg) F := by
  refine rejF_alt (rejF_node (rejF_seq (rejF_lParen hF))) (rejF_alt (rejF_node ?_) rejF_alt_nil)
  intro ws hw t ht
  exact refuses_bind (refuses_peek (rejF_head (· == '(') lit_refuses1 hF ws hw t ht))

theorem impl_elemExprs : Impl n m [.close] [manyN .ELEM_EXPR] (many dbg (retryOnce dbg (elemExpr dbg) [])) :=
  Impl.many (Impl.retryOnce (impl_elemExpr.mono (by chk))) (rejF_retryOnce rejF_elemExpr (by chk))

theorem impl_indices : Impl n m [.close] [manyN .INDEX] (many dbg (retryOnce dbg index [])) :=
  Impl.many (Impl.retryOnce impl_index) (rejF_retryOnce (rejF_index (by chk) (by chk)) (by chk))

theorem impl_elemList : Impl n true [.close] [oneN .ELEM_LIST] (elemList dbg) := by
  rw [show elemList dbg = nodeP .ELEM_LIST (alt [seq [alt [keyword t!"func", index], many dbg (retryOnce dbg index [])],
    seq [refType, many dbg (retryOnce dbg (elemExpr dbg) [])]]) from alt_node (ps := [_, _]) (by simp)]
  exact Impl.node3 rfl
    (Impl.altL (Impl.cons (Impl.altL impl_kw) (Impl.cons impl_indices Impl.nil)))
    (Impl.altL (Impl.cons (Impl.altR (rejF_keyword (by chk) (by chk)) (Impl.altL impl_index)) (Impl.cons impl_indices Impl.nil)))
    (Impl.altP (rejF_seq (rejF_alt (rejF_keyword (by chk) (by chk)) (rejF_alt (rejF_index (by chk) (by chk)) rejF_alt_nil)))
      (Impl.altL (Impl.cons impl_refType (Impl.cons impl_elemExprs Impl.nil))))

theorem rejF_elemList (h1 : F.all (notWord [t!"func"]) = true := by chk) (h2 : F.all (notWord [t!"funcref", t!"externref"]) = true := by chk)
    (h3 : (F.all fun a => a.chars.all fun c => !(c == '$')) = true := by chk) (h4 : (F.all fun a => a.chars.all fun c => !isDigit c) = true := by chk) :
    RejF true (elemList dbg) F :=
  rejF_alt (rejF_node (rejF_seq (rejF_alt (rejF_keyword (by chk) h1) (rejF_alt (rejF_index h3 h4) rejF_alt_nil))))
    (rejF_alt (rejF_node (rejF_seq (rejF_refType h2))) rejF_alt_nil)

/-- Choosing by the next character after white space. -/
theorem acc_peekNext {f : Char → G} {gs : List Green} {rest : List Text}
    (hd : ∀ t, Rdy t (lexL gs ++ rest) → ∃ c x, t = c :: x ∧ Acc false (f c) gs rest) :
    Acc m (P.bind (peek (P.bind (trivias dbg) fun _ => any)) f) gs rest := by
  refine Acc.weak fun t ht => ?_
  obtain ⟨tr, t1, g1, b1, r1, n1⟩ := gives_trivias (dbg := dbg) ht
  obtain ⟨c, x, rfl, h⟩ := hd t1 r1
  obtain ⟨o, t4, g4, hh⟩ := h t ht
  exact ⟨o, t4, gives_bind (gives_peek (gives_bind g1 gives_any)) g4, hh⟩

theorem next_of {ws : List Text} (h : Ok F ws) (hF : F.contains .eof = false := by chk) {t : Text} (ht : Rdy t ws) :
    ∃ c x, t = c :: x ∧ c ∈ F.flatMap Look.chars := by
  cases t with
  | nil =>
    have hn : ws = [] := List.length_eq_zero_iff.mp (by simpa using ht.lexes.len)
    exact absurd hn (h.ne_nil hF)
  | cons c x =>
    obtain ⟨a, ha, hf, hh⟩ := h
    exact ⟨c, x, rfl, List.mem_flatMap.mpr ⟨a, ha, Look.head ht hh hf c x rfl⟩⟩

theorem formOrInstr_first {k : Kind} {kw : Text} {cs : List Green} (hp : productions k = [[lp, oneW kw, instrs, rp], [.one instrTerms]])
    (hk : reservedWords.contains kw = true) (h : WF n (.node k cs)) (hreg : ∀ g, cs = [g] → g.kind ∈ instructionKinds → BeginsWith .L_PAREN g) (rest : List Text) :
    Ok [.openW kw, .openI, .openW t!"block", .openW t!"loop", .openW t!"if"] (lexemes (.node k cs) ++ rest) := by
  rw [lexemes_kids]
  obtain ⟨p, hp', hm, hr⟩ := h.cases
  rw [hp] at hp'
  simp only [List.mem_cons, List.not_mem_nil, or_false] at hp'
  rcases hp' with rfl | rfl
  · exact (firstP_sound hm (fun g hg => (h.kids g hg).1) hk).mono fun a ha => by
      simp only [firstP, List.mem_singleton] at ha
      simp [ha]
  · obtain ⟨g, r, rfl, ht, hm'⟩ := match_cons_one hm
    cases hm'
    obtain ⟨k', cs', e, hk'⟩ := instr_kind ht
    rw [lexL_cons, lexL_nil, List.append_nil]
    exact (folded_first (h.kids g (.head _)).1 ht (hreg g rfl (by rw [e]; exact hk')) rest).mono fun a ha => List.mem_cons_of_mem _ ha

/-- The body of an inline element segment. -/
def elemBody (dbg : Bool) (c : Char) : G :=
  if c == '(' then many dbg (retryOnce dbg (elemExpr dbg) [])
  else if c == ')' then P.pure []
  else many dbg (retryOnce dbg index [])

theorem acc_elemBody {l : List Green} {rest : List Text} (hm : Match [manyN .ELEM_EXPR] l ∨ Match [manyN .INDEX] l) (hw : ∀ g ∈ l, WF n g) (hF : Ok [.close] rest) :
    Acc false (P.bind (peek (P.bind (trivias dbg) fun _ => any)) (elemBody dbg)) l rest := by
  cases l with
  | nil =>
    refine acc_peekNext fun t ht => ?_
    obtain ⟨c, x, rfl, hc⟩ := next_of hF (by chk) ht
    refine ⟨c, x, rfl, ?_⟩
    simp only [List.flatMap_cons, List.flatMap_nil, Look.chars, List.append_nil, List.mem_singleton] at hc
    subst hc
    exact acc_seq_nil
  | cons g l =>
    rcases hm with hm | hm
    · have i : Impl n false [.close] [manyN .ELEM_EXPR] (many dbg (retryOnce dbg (elemExpr dbg) [])) := impl_elemExprs
      refine acc_peekNext fun t ht => ?_
      obtain ⟨cs, rfl⟩ := match_manyN hm g (.head _)
      obtain ⟨p, hp', hm', hr⟩ := (hw _ (.head _)).cases
      rw [lexL_cons, List.append_assoc] at ht
      obtain ⟨c, x, rfl, hc⟩ := next_of (formOrInstr_first rfl (by decide) (hw _ (.head _)) hr.1 _) (by chk) ht
      refine ⟨c, x, rfl, ?_⟩
      have hc : c = '(' := by simpa [Look.chars] using hc
      subst hc
      exact i _ rest hm hw hF
    · have i : Impl n false [.close] [manyN .INDEX] (many dbg (retryOnce dbg index [])) := impl_indices
      refine acc_peekNext fun t ht => ?_
      obtain ⟨cs, rfl⟩ := match_manyN hm g (.head _)
      rw [lexL_cons, List.append_assoc] at ht
      obtain ⟨c, x, rfl, hc⟩ := next_of (first_sound (hw _ (.head _)).1 (.node .INDEX) rfl (by decide) _) (by chk) ht
      refine ⟨c, x, rfl, ?_⟩
      have hc : (c == '(') = false ∧ (c == ')') = false := by
        clear ht
        revert c
        decide
      rw [elemBody, if_neg (by simp [hc.1]), if_neg (by simp [hc.2])]
      exact i _ rest hm hw hF

theorem impl_elem : Impl n true F [oneN .ELEM] (elem dbg) := by
  refine Impl.nodeR fun p hp l rest hm _ hw _ => ?_
  have key : ∀ k : Kind, (k = .ELEM_EXPR ∨ k = .INDEX) → Match [lp, oneW t!"elem", manyN k, rp] l →
      Acc true (seq [lParen, tp dbg (keyword t!"elem"), P.bind (peek (P.bind (trivias dbg) fun _ => any)) (elemBody dbg), rParen dbg]) l rest := by
    intro k hk hm
    obtain ⟨g0, r0, rfl, ⟨t0, ht0, hi0⟩, hm0⟩ := match_cons_one hm
    simp only [List.mem_singleton] at ht0; subst ht0
    obtain ⟨x, rfl⟩ := is_tok hi0
    cases (show x = ['('] from (wf_tok (hw _ (.head _)).1).1)
    obtain ⟨g1, r1, rfl, ⟨t1, ht1, hi1⟩, hmA⟩ := match_cons_one hm0
    simp only [List.mem_singleton] at ht1; subst ht1
    cases is_word hi1
    obtain ⟨b, c, rfl, hb, hc⟩ := match_split (is := [manyN k]) hmA
    obtain ⟨y2, s2, rfl, ⟨u2, hu2, hv2⟩, hn2⟩ := match_cons_one hc
    cases hn2
    simp only [List.mem_singleton] at hu2; subst hu2
    obtain ⟨x, rfl⟩ := is_tok hv2
    cases (show x = [')'] from (wf_tok (hw (.tok .R_PAREN x) (by simp)).1).1)
    refine acc_seq_cons (gs := [_]) acc_lParen (acc_seq_cons (gs := [_]) (acc_tp (acc_keyword (by chk))) (acc_seq_cons (gs := b) ?_ (acc_seq_cons (gs := [_]) (hs := []) acc_rParen acc_seq_nil)))
    refine acc_elemBody ?_ (fun g hg => hw g (by simp [hg])) ⟨.close, .head _, rfl, _, rfl⟩
    rcases hk with rfl | rfl
    · exact .inl hb
    · exact .inr hb
  simp only [productions, List.mem_cons, List.not_mem_nil, or_false] at hp
  rcases hp with rfl | rfl
  · exact key .ELEM_EXPR (.inl rfl) hm
  · exact key .INDEX (.inr rfl) hm

/-! ### Fields -/

theorem impl_instrsOnce : Impl n m [.close] [instrs] (many dbg (retryOnce dbg (instr dbg) [])) :=
  Impl.many (Impl.retryOnce (ins_instr.low.mono (by chk))) (rejF_retryOnce (rejF_mono (ins_instr (n := n)).rej (by chk)) (by chk))

theorem impl_fieldData : Impl n true F [oneN .MODULE_FIELD_DATA] (moduleFieldData dbg) :=
  Impl.node1 rfl (Impl.cons impl_lParen (Impl.cons (Impl.tp impl_kw) (Impl.cons impl_optIdent
    (Impl.cons (Impl.opt (Impl.tp impl_memUse) (rejF_tp (rejF_form (by chk) (by chk))))
      (Impl.cons (Impl.opt (Impl.tp (impl_offset.mono (by chk))) (rejF_tp rejF_offset))
        (Impl.cons impl_strings (Impl.cons impl_rParen Impl.nil)))))))

theorem impl_fieldExport : Impl n true F [oneN .MODULE_FIELD_EXPORT] (moduleFieldExport dbg) :=
  Impl.node1 rfl (Impl.cons impl_lParen (Impl.cons (Impl.tp impl_kw) (Impl.cons (Impl.must (Impl.tp impl_name))
    (Impl.cons (Impl.must (Impl.retryOnce impl_exportDesc)) (Impl.cons impl_rParen Impl.nil)))))

theorem impl_fieldImport : Impl n true F [oneN .MODULE_FIELD_IMPORT] (moduleFieldImport dbg) :=
  Impl.node1 rfl (Impl.cons impl_lParen (Impl.cons (Impl.tp impl_kw) (Impl.cons (Impl.must (Impl.retry impl_moduleName))
    (Impl.cons (Impl.must (Impl.retry impl_name)) (Impl.cons (Impl.must (Impl.retryOnce impl_importDesc)) (Impl.cons impl_rParen Impl.nil))))))

theorem impl_fieldStart : Impl n true F [oneN .MODULE_FIELD_START] (moduleFieldStart dbg) :=
  Impl.node1 rfl (Impl.cons impl_lParen (Impl.cons (Impl.tp impl_kw) (Impl.cons (Impl.must (Impl.retryOnce impl_index)) (Impl.cons impl_rParen Impl.nil))))

theorem impl_fieldType : Impl n true F [oneN .MODULE_FIELD_TYPE] (moduleFieldType dbg) :=
  Impl.node1 rfl (Impl.cons impl_lParen (Impl.cons (Impl.tp impl_kw) (Impl.cons impl_optIdent (Impl.cons (Impl.must (Impl.retryOnce impl_funcType)) (Impl.cons impl_rParen Impl.nil)))))

theorem rejF_import (hF : (F.all fun a => a != .openW t!"import") = true := by chk) : RejF true (importP dbg) F := rejF_form (by chk) hF
theorem rejF_export (hF : (F.all fun a => a != .openW t!"export") = true := by chk) : RejF true (exportP dbg) F := rejF_form (by chk) hF

theorem impl_fieldFunc : Impl n true F [oneN .MODULE_FIELD_FUNC] (moduleFieldFunc dbg) :=
  Impl.node1 rfl (Impl.cons impl_lParen (Impl.cons (Impl.tp impl_kw) (Impl.cons impl_optIdent
    (Impl.cons (Impl.many (Impl.tp (Impl.or (Impl.altL impl_import) (Impl.altR rejF_import (Impl.altL impl_export))))
        (rejF_tp (rejF_alt rejF_import (rejF_alt rejF_export rejF_alt_nil))))
      (Impl.cons (Impl.opt (Impl.tp (impl_typeUse.mono (by chk))) (rejF_tp rejF_typeUse))
        (Impl.cons (Impl.many (Impl.tp impl_local) (rejF_tp (rejF_form (by chk) (by chk))))
          (Impl.cons impl_instrsOnce (Impl.cons impl_rParen Impl.nil))))))))

theorem impl_fieldGlobal : Impl n true F [oneN .MODULE_FIELD_GLOBAL] (moduleFieldGlobal dbg) :=
  Impl.node1 rfl (Impl.cons impl_lParen (Impl.cons (Impl.tp impl_kw) (Impl.cons impl_optIdent
    (Impl.cons (Impl.opt (Impl.tp impl_import) (rejF_tp rejF_import)) (Impl.cons (Impl.opt (Impl.tp impl_export) (rejF_tp rejF_export))
      (Impl.cons (Impl.must (Impl.retryOnce impl_globalType)) (Impl.cons impl_instrsOnce (Impl.cons impl_rParen Impl.nil))))))))

theorem impl_memOrData : Impl n m [.close] [.one [.node .DATA, .node .MEMORY_TYPE]] (P.bind (peek (P.bind (trivias dbg) fun _ => any)) fun c =>
      if c == '(' then must (retryOnce dbg (dataP dbg) [])
      else must (retryOnce dbg (memoryType dbg) [])) := by
  intro l rest hm hw hF
  obtain ⟨t, ht, g, rfl, hi⟩ := match_one hm
  simp only [List.mem_cons, List.not_mem_nil, or_false] at ht
  have h1 : Impl n false [.close] [oneN .DATA] (must (retryOnce dbg (dataP dbg) [])) := Impl.must (Impl.retryOnce impl_data)
  have h2 : Impl n false [.close] [oneN .MEMORY_TYPE] (must (retryOnce dbg (memoryType dbg) [])) := Impl.must (Impl.retryOnce impl_memoryType)
  rcases ht with rfl | rfl
  · refine acc_peekNext fun t ht => ?_
    rw [lexL_cons, lexL_nil, List.append_nil] at ht
    obtain ⟨c, x, rfl, hc⟩ := next_of (first_sound (hw _ (.head _)).1 (.node .DATA) hi (by decide) _) (by chk) ht
    refine ⟨c, x, rfl, ?_⟩
    have hc : c = '(' := by simpa [Look.chars, firstT, firstN] using hc
    subst hc
    exact h1 [g] rest (.one (.head _) hi .nil) hw hF
  · refine acc_peekNext fun t ht => ?_
    rw [lexL_cons, lexL_nil, List.append_nil] at ht
    obtain ⟨c, x, rfl, hc⟩ := next_of (first_sound (hw _ (.head _)).1 (.node .MEMORY_TYPE) hi (by decide) _) (by chk) ht
    refine ⟨c, x, rfl, ?_⟩
    have hc : (c == '(') = false := by
      clear ht
      revert c
      decide
    rw [if_neg (by simp [hc])]
    exact h2 [g] rest (.one (.head _) hi .nil) hw hF

theorem impl_fieldMemory : Impl n true F [oneN .MODULE_FIELD_MEMORY] (moduleFieldMemory dbg) :=
  Impl.node1 rfl (Impl.cons impl_lParen (Impl.cons (Impl.tp impl_kw) (Impl.cons impl_optIdent
    (Impl.cons (Impl.opt (Impl.tp impl_import) (rejF_tp rejF_import)) (Impl.cons (Impl.opt (Impl.tp impl_export) (rejF_tp rejF_export))
      (Impl.cons impl_memOrData (Impl.cons impl_rParen Impl.nil)))))))

theorem impl_fieldTable : Impl n true F [oneN .MODULE_FIELD_TABLE] (moduleFieldTable dbg) :=
  Impl.node2 rfl
    (Impl.cons impl_lParen (Impl.cons (Impl.tp impl_kw) (Impl.cons impl_optIdent
      (Impl.cons (Impl.opt (Impl.tp impl_import) (rejF_tp rejF_import)) (Impl.cons (Impl.opt (Impl.tp impl_export) (rejF_tp rejF_export))
        (Impl.two (Impl.must (Impl.altL (Impl.cons (Impl.tp impl_refType) (Impl.cons (Impl.must (Impl.retryOnce impl_elem)) Impl.nil))))
          (Impl.cons impl_rParen Impl.nil)))))))
    (Impl.cons impl_lParen (Impl.cons (Impl.tp impl_kw) (Impl.cons impl_optIdent
      (Impl.cons (Impl.opt (Impl.tp impl_import) (rejF_tp rejF_import)) (Impl.cons (Impl.opt (Impl.tp impl_export) (rejF_tp rejF_export))
        (Impl.cons (Impl.must (Impl.altR (rejF_seq (rejF_tp (rejF_refType (by chk)))) (Impl.altL (Impl.retry impl_tableType))))
          (Impl.cons impl_rParen Impl.nil)))))))

/-- The first tokens of a list of elements that does not begin with an identifier. -/
def elemFirst : List Look := [.word t!"func", .num, .word t!"funcref", .word t!"externref"]

theorem elemList_first {g : Green} (h : WellFormed g) (hg : (Term.node .ELEM_LIST).is g) (hn : ¬ StartsWithIdent g) (rest : List Text) :
    Ok elemFirst (lexemes g ++ rest) := by
  obtain ⟨a, ha, hf, hh⟩ := first_sound h (.node .ELEM_LIST) hg (by decide) rest
  have ne := lex_ne h hg (by decide)
  by_cases e : a = .ident
  · subst e
    obtain ⟨w, r, e, r', rfl, _⟩ := hh
    cases hl : lexemes g with
    | nil => exact absurd hl ne
    | cons x xs =>
      rw [hl] at e
      cases e
      exact absurd ⟨r', xs, hl⟩ hn
  · refine ⟨a, ?_, hf, hh⟩
    simp only [firstT, firstN, List.mem_cons, List.not_mem_nil, or_false, elemFirst] at ha ⊢
    rcases ha with rfl | rfl | rfl | rfl | rfl <;> simp_all

theorem reserved_plain : ∀ w ∈ reservedWords, w.head? ≠ some '$' ∧ w ≠ [] := by decide

theorem ok_other {F F' : List Look} {ws : List Text} (h : Ok F ws)
    (hs : (F.all fun a => F'.contains a || (F'.contains .other && (match a with | .word _ | .num => true | _ => false))) = true := by chk) : Ok F' ws := by
  obtain ⟨a, ha, hf, hh⟩ := h
  have hb := List.all_eq_true.mp hs a ha
  rw [Bool.or_eq_true] at hb
  rcases hb with hb | hb
  · exact ⟨a, List.contains_iff_mem.mp hb, hf, hh⟩
  · rw [Bool.and_eq_true] at hb
    refine ⟨.other, List.contains_iff_mem.mp hb.1, rfl, ?_⟩
    cases a with
    | word w =>
      obtain ⟨r, rfl⟩ := hh
      have hr : w ∈ reservedWords := List.contains_iff_mem.mp hf
      obtain ⟨h1, h2⟩ := reserved_plain w hr
      cases w with
      | nil => exact absurd rfl h2
      | cons c w => exact ⟨c, w, r, rfl, fun e => h1 (by simp [e]), word_wasm (reserved_word hr)⟩
    | num =>
      obtain ⟨w, r, rfl, hu⟩ := hh
      obtain ⟨c, w', rfl, hc⟩ := unsigned_head hu
      refine ⟨c, w', r, rfl, ?_, unsigned_wasm hu⟩
      rintro rfl
      revert hc
      decide
    | _ => simp at hb

theorem impl_elemDeclare : Impl n false [.close] [oneW t!"declare", oneN .ELEM_LIST]
    (seq [tp dbg (keyword t!"declare"), must (retryOnce dbg (elemList dbg) [])]) :=
  Impl.cons (Impl.tp impl_kw) (Impl.cons (Impl.must (Impl.retryOnce impl_elemList)) Impl.nil)

theorem acc_elemActive {l : List Green} {rest : List Text} (hm : Match [optN .TABLE_USE, oneN .OFFSET, optN .ELEM_LIST] l) (hw : ∀ g ∈ l, WF n g)
    (hadj : ∀ a x y b, l = a ++ x :: y :: b → Unlabelled x → ¬ StartsWithIdent y) (hF : Ok [.close] rest) :
    Acc false (seq [optG (tp dbg (tableUse dbg)), must (retryOnce dbg (offset dbg) []), optG (retryOnce dbg (elemList dbg) [])]) l rest := by
  obtain ⟨b, c, rfl, hb, hc⟩ := match_split (is := [optN .TABLE_USE]) hm
  obtain ⟨g, d, rfl, ⟨t, ht, hi⟩, hd⟩ := match_cons_one hc
  simp only [List.mem_singleton] at ht; subst ht
  obtain ⟨cs, rfl⟩ := is_node hi
  have hwo := hw (.node .OFFSET cs) (by simp)
  obtain ⟨p, hp', hm', hr⟩ := hwo.cases
  have i1 : Impl n false [.openW t!"offset", .openI, .openW t!"block", .openW t!"loop", .openW t!"if"] [optN .TABLE_USE] (optG (tp dbg (tableUse dbg))) :=
    Impl.opt (Impl.tp impl_tableUse) (rejF_tp (rejF_form (by chk) (by chk)))
  have i3 : Impl n false [.close] [optN .ELEM_LIST] (optG (retryOnce dbg (elemList dbg) [])) :=
    Impl.opt (Impl.retryOnce impl_elemList) (rejF_retryOnce rejF_elemList (by chk))
  have hnext : Ok afterTypeUse (lexL d ++ rest) ∧ (Unlabelled (.node .OFFSET cs) → Ok noLabel (lexL d ++ rest)) := by
    have i := firsts_sound hF hd (fun g hg => (hw g (by simp [hg])).1) (by decide)
    refine ⟨ok_other i, fun hu => ?_⟩
    cases hd with
    | skip hd =>
      cases hd
      exact ok_other hF
    | opt h1 h2 h3 =>
      cases h3
      simp only [List.mem_singleton] at h1; subst h1
      rw [lexL_cons, lexL_nil, List.append_nil]
      exact ok_other (elemList_first (hw _ (by simp)).1 h2 (hadj b _ _ [] rfl hu) rest)
  have last : Acc false (seq [optG (retryOnce dbg (elemList dbg) [])]) (d ++ []) rest :=
    acc_seq_cons (gs := d) (hs := []) (i3 d _ hd (fun g hg => hw g (by simp [hg])) hF) acc_seq_nil
  rw [List.append_nil] at last
  refine acc_seq_cons (gs := b) (i1 b _ hb (fun g hg => hw g (by simp [hg])) ?_)
    (acc_seq_cons (gs := [_]) (acc_must (acc_retryOnce (acc_offset hwo hnext.1 hnext.2))) last)
  rw [lexL_cons, List.append_assoc]
  exact formOrInstr_first rfl (by decide) hwo hr.1 _

/-- What comes after the name of an element segment. -/
def elemRest (dbg : Bool) : G :=
  alt [seq [tp dbg (keyword t!"declare"), must (retryOnce dbg (elemList dbg) [])],
    tp dbg (elemList dbg),
    seq [optG (tp dbg (tableUse dbg)), must (retryOnce dbg (offset dbg) []), optG (retryOnce dbg (elemList dbg) [])]]

/-- The forms of what comes after the name of an element segment. -/
def elemForms : List (List Item) :=
  [[oneW t!"declare", oneN .ELEM_LIST], [oneN .ELEM_LIST], [optN .TABLE_USE, oneN .OFFSET, optN .ELEM_LIST]]

/-- The first tokens of an active element segment. -/
def activeFirst : List Look := [.openW t!"table", .openW t!"offset", .openI, .openW t!"block", .openW t!"loop", .openW t!"if"]

theorem acc_elemRest {p : List Item} {l : List Green} {rest : List Text} (hp : p ∈ elemForms) (hm : Match p l) (hw : ∀ g ∈ l, WF n g)
    (hadj : ∀ a x y b, l = a ++ x :: y :: b → Unlabelled x → ¬ StartsWithIdent y) (hF : Ok [.close] rest) :
    Acc false (elemRest dbg) l rest ∧
      (Ok [.word t!"declare", .openW t!"table", .openW t!"offset", .openI, .openW t!"block", .openW t!"loop", .openW t!"if"] (lexL l ++ rest) ∨
        ∃ c, l = [.node .ELEM_LIST c]) := by
  simp only [elemForms, List.mem_cons, List.not_mem_nil, or_false] at hp
  rcases hp with rfl | rfl | rfl
  · have i : Impl n false [.close] [oneW t!"declare", oneN .ELEM_LIST] (elemRest dbg) := Impl.altL impl_elemDeclare
    exact ⟨i l rest hm hw hF, .inl ((firsts_sound hF hm (fun g hg => (hw g hg).1) (by decide)).mono (by decide))⟩
  · have i : Impl n false [.close] [oneN .ELEM_LIST] (elemRest dbg) :=
      Impl.altR (rejF_seq (rejF_tp (rejF_keyword (by chk) (by chk)))) (Impl.altL (Impl.tp impl_elemList))
    refine ⟨i l rest hm hw hF, .inr ?_⟩
    obtain ⟨g, d, rfl, ⟨t, ht, hi⟩, hd⟩ := match_cons_one hm
    cases hd
    simp only [List.mem_singleton] at ht; subst ht
    obtain ⟨cs, rfl⟩ := is_node hi
    exact ⟨cs, rfl⟩
  · have ok : Ok activeFirst (lexL l ++ rest) := by
      obtain ⟨b, c, rfl, hb, hc⟩ := match_split (is := [optN .TABLE_USE]) hm
      obtain ⟨g, d, rfl, ⟨t, ht, hi⟩, hd⟩ := match_cons_one hc
      simp only [List.mem_singleton] at ht; subst ht
      obtain ⟨cs, rfl⟩ := is_node hi
      have hwo := hw (.node .OFFSET cs) (by simp)
      obtain ⟨p, hp', hm', hr⟩ := hwo.cases
      have h1 := formOrInstr_first rfl (by decide) hwo hr.1 (lexL d ++ rest)
      have h2 := firsts_sound h1 hb (fun g hg => (hw g (by simp [hg])).1) (by decide)
      rw [lexL_append, List.append_assoc, lexL_cons, List.append_assoc]
      exact h2.mono (by decide)
    exact ⟨acc_alt_right (rejF_seq (rejF_tp (rejF_keyword (by chk) (F := activeFirst) (by chk))) _ ok)
      (acc_alt_right (rejF_tp (F := activeFirst) rejF_elemList _ ok) (acc_alt_left (acc_elemActive hm hw hadj hF))), .inl (ok.mono (by decide))⟩

theorem impl_fieldElem : Impl n true F [oneN .MODULE_FIELD_ELEM] (moduleFieldElem dbg) := by
  refine Impl.nodeR fun p hp l rest hm hr hw _ => ?_
  have key : ∃ q ∈ elemForms, Match ([lp, oneW t!"elem", optT .IDENT] ++ (q ++ [rp])) l := by
    simp only [productions, List.mem_cons, List.not_mem_nil, or_false] at hp
    rcases hp with rfl | rfl | rfl
    · exact ⟨_, .head _, hm⟩
    · exact ⟨_, .tail _ (.head _), hm⟩
    · exact ⟨_, .tail _ (.tail _ (.head _)), hm⟩
  obtain ⟨q, hq, hm⟩ := key
  obtain ⟨g0, r0, rfl, ⟨t0, ht0, hi0⟩, hm0⟩ := match_cons_one hm
  simp only [List.mem_singleton] at ht0; subst ht0
  obtain ⟨x, rfl⟩ := is_tok hi0
  cases (show x = ['('] from (wf_tok (hw _ (.head _)).1).1)
  obtain ⟨g1, r1, rfl, ⟨t1, ht1, hi1⟩, hmA⟩ := match_cons_one hm0
  simp only [List.mem_singleton] at ht1; subst ht1
  cases is_word hi1
  obtain ⟨b, c, rfl, hb, hc⟩ := match_split (is := [optT .IDENT]) hmA
  obtain ⟨c, d, rfl, hcq, hd⟩ := match_split hc
  obtain ⟨y2, s2, rfl, ⟨u2, hu2, hv2⟩, hn2⟩ := match_cons_one hd
  cases hn2
  simp only [List.mem_singleton] at hu2; subst hu2
  obtain ⟨x, rfl⟩ := is_tok hv2
  cases (show x = [')'] from (wf_tok (hw (.tok .R_PAREN x) (by simp)).1).1)
  have hF : Ok [.close] (lexL [.tok .R_PAREN [')']] ++ rest) := ⟨.close, .head _, rfl, _, rfl⟩
  obtain ⟨h1, h2⟩ := acc_elemRest (n := n) (dbg := dbg) (rest := lexL [.tok .R_PAREN [')']] ++ rest) hq hcq (fun g hg => hw g (by simp [hg]))
    (fun a x y b' e => hr.2 (.tok .L_PAREN ['('] :: .tok .KEYWORD t!"elem" :: (b ++ a)) x y (b' ++ [.tok .R_PAREN [')']]) (by rw [e]; simp)) hF
  have hid : Acc false (optG (tp dbg ident)) b (lexL (c ++ [.tok .R_PAREN [')']]) ++ rest) := by
    rw [lexL_append, List.append_assoc]
    cases hb with
    | skip hb =>
      cases hb
      have i : ∀ F : List Look, (F.all fun a => a.chars.all fun c => !(c == '$')) = true → Ok F (lexL c ++ (lexL [.tok .R_PAREN [')']] ++ rest)) →
          Acc false (optG (tp dbg ident)) [] (lexL c ++ (lexL [.tok .R_PAREN [')']] ++ rest)) := fun F h1 h2 =>
        acc_optG_none (rejF_tp (rejF_ident h1) _ h2)
      rcases h2 with h2 | ⟨e, rfl⟩
      · exact i _ (by decide) h2
      · have hl := elemList_first (hw (.node .ELEM_LIST e) (by simp)).1 (show (Term.node .ELEM_LIST).is _ from rfl)
          (hr.1 (.tok .L_PAREN ['(']) (.tok .KEYWORD t!"elem") e [.tok .R_PAREN [')']] (by simp)) (lexL [.tok .R_PAREN [')']] ++ rest)
        refine i elemFirst (by decide) ?_
        rw [lexL_cons, lexL_nil, List.append_nil]
        exact hl
    | opt h1 h2 h3 =>
      cases h3
      simp only [List.mem_singleton] at h1; subst h1
      obtain ⟨x, rfl⟩ := is_tok h2
      exact acc_optG (acc_tp (acc_ident (wf_tok (hw (.tok .IDENT x) (by simp)).1).1))
  exact acc_seq_cons (gs := [_]) acc_lParen (acc_seq_cons (gs := [_]) (acc_tp (acc_keyword (by chk))) (acc_seq_cons (gs := b) hid
    (acc_seq_cons (gs := c) h1 (acc_seq_cons (gs := [_]) (hs := []) acc_rParen acc_seq_nil))))

theorem impl_moduleField : Impl n true F [.one fieldTerms] (moduleField dbg) := by
  refine Impl.context (Impl.dispatch ?_)
  intro t ht
  simp only [fieldTerms, List.mem_cons, List.not_mem_nil, or_false] at ht
  rcases ht with rfl | rfl | rfl | rfl | rfl | rfl | rfl | rfl | rfl | rfl
  · exact ⟨t!"data", rfl, by chk, impl_fieldData⟩
  · exact ⟨t!"elem", rfl, by chk, impl_fieldElem⟩
  · exact ⟨t!"export", rfl, by chk, impl_fieldExport⟩
  · exact ⟨t!"func", rfl, by chk, impl_fieldFunc⟩
  · exact ⟨t!"global", rfl, by chk, impl_fieldGlobal⟩
  · exact ⟨t!"import", rfl, by chk, impl_fieldImport⟩
  · exact ⟨t!"memory", rfl, by chk, impl_fieldMemory⟩
  · exact ⟨t!"start", rfl, by chk, impl_fieldStart⟩
  · exact ⟨t!"table", rfl, by chk, impl_fieldTable⟩
  · exact ⟨t!"type", rfl, by chk, impl_fieldType⟩

theorem rejF_peekParen {f : Text → G} (hF : (F.all fun a => a.chars.all fun c => !(c == '(')) = true := by chk) : RejF true (P.bind (peekParenWord dbg) f) F := by
  intro ws hw t ht
  exact refuses_bind (refuses_peek (refuses_bind (rejF_head (· == '(') lit_refuses1 hF ws hw t ht)))

theorem impl_module : Impl n true F [oneN .MODULE] (moduleP dbg) :=
  Impl.node1 rfl (Impl.cons impl_lParen (Impl.cons (Impl.tp impl_kw) (Impl.cons impl_optIdent
    (Impl.cons (Impl.many (Impl.retryOnce impl_moduleField) (rejF_retryOnce (rejF_context rejF_peekParen) (by chk)))
      (Impl.cons impl_rParen Impl.nil)))))

theorem impl_modules : Impl n false [.eof] [manyN .MODULE] (many dbg (retryOnce dbg (moduleP dbg) [])) :=
  Impl.many (Impl.retryOnce impl_module) (rejF_retryOnce (rejF_node (rejF_seq (rejF_lParen (by chk)))) (by chk))

end

/-! ### The document -/

theorem alt_more {α : Type} {qs : List (P α)} {a : α} : ∀ (ps : List (P α)) {s s' : St}, alt ps s = .ok a s' → alt (ps ++ qs) s = .ok a s'
  | [], _, _, h => by cases h
  | [p], s, _, h => by
    cases qs with
    | nil => exact h
    | cons q qs =>
      rw [alt] at h
      simp [alt, alt2, h]
  | p :: p' :: ps, s, _, h => by
    rw [List.cons_append, List.cons_append]
    simp only [alt, alt2] at h ⊢
    cases hp : p s with
    | fail e s1 =>
      simp only [hp] at h ⊢
      exact alt_more (p' :: ps) h
    | ok b s1 => simp only [hp] at h ⊢; exact h
    | panic => simp only [hp] at h; cases h
    | oof => simp only [hp] at h; cases h

theorem gives_alt_more {α : Type} {ps qs : List (P α)} {t t' : Text} {a : α} (h : Gives (alt ps) t a t') : Gives (alt (ps ++ qs)) t a t' := by
  intro pos errs
  obtain ⟨pos', e⟩ := h pos errs
  exact ⟨pos', alt_more ps e⟩

theorem gives_trail_aux {dbg : Bool} : ∀ (n : Nat) {t : Text}, t.length ≤ n → Lexes t [] → ∀ fuel, t.length < fuel →
    ∃ l, Gives (repeatF dbg (alt [ws, lineComment, blockComment dbg, errorToken true]) fuel) t l [] ∧ (∀ g ∈ l.flatten, isBlank g = true) := by
  have hend : Refuses (alt [ws, lineComment, blockComment dbg, errorToken true]) [] := by
    intro pos errs
    exact ⟨_, _, _, rfl⟩
  intro n
  induction n with
  | zero =>
    intro t hn h fuel hf
    obtain ⟨fuel, rfl⟩ : ∃ k, fuel = k + 1 := ⟨fuel - 1, by omega⟩
    cases t with
    | nil => exact ⟨[], gives_repeat_done hend, by simp⟩
    | cons c t => simp at hn
  | succ n ih =>
    intro t hn h fuel hf
    obtain ⟨fuel, rfl⟩ : ∃ k, fuel = k + 1 := ⟨fuel - 1, by omega⟩
    rcases trivia_step (dbg := dbg) h with h | ⟨k, w, t', h1, h2, h3, hlt⟩
    · cases Rdy.at_nil h
      exact ⟨[], gives_repeat_done hend, by simp⟩
    · obtain ⟨l, h4, h5⟩ := ih (by omega) h3 fuel (by omega)
      exact ⟨_, gives_repeat_more (gives_alt_more (qs := [errorToken true]) h1) hlt h4, by simpa [h2] using h5⟩

theorem gives_trail {dbg : Bool} {t : Text} (h : Lexes t []) :
    ∃ tr, Gives (many dbg (alt [ws, lineComment, blockComment dbg, errorToken true])) t tr [] ∧ stripL tr = [] := by
  obtain ⟨l, h1, h2⟩ := gives_trail_aux (dbg := dbg) t.length (Nat.le_refl _) h (t.length + 1) (by omega)
  exact ⟨l.flatten, gives_map (fun pos errs => h1 pos errs), stripL_blank h2⟩

/-- Every program, however laid out, is parsed without errors into its tree. -/
theorem parse_accepts (dbg : Bool) {src : Text} {g : Green} (hg : Program g) (hs : Lexes src (lexemes g)) :
    ∃ g', parse dbg src = .tree g' [] [] ∧ strip g' = g := by
  cases g with
  | tok k t =>
    obtain ⟨hk, hw⟩ := hg
    cases (show k = .ROOT from hk)
    exact (wf_tok hw).1.elim
  | node k cs =>
    obtain ⟨hk, hw⟩ := hg
    cases (show k = .ROOT from hk)
    have hwf : WF (lexL cs).length (.node .ROOT cs) := ⟨hw, fun k cs e => by cases e; exact Nat.le_refl _⟩
    obtain ⟨p, hp, hm, _⟩ := hwf.cases
    simp only [productions, List.mem_singleton] at hp; subst hp
    obtain ⟨o, t', g1, e1, l1, _⟩ := impl_modules (dbg := dbg) cs [] hm hwf.kids ⟨.eof, .head _, rfl, rfl⟩ src (by rw [List.append_nil, ← lexemes_kids (k := .ROOT)]; exact hs)
    obtain ⟨tr, g2, e2⟩ := gives_trail (dbg := dbg) l1
    have g3 : Gives (rootChildren dbg) src (o ++ (tr ++ [])) [] := gives_bind g1 (gives_map (gives_bind g2 (gives_map gives_pure)))
    obtain ⟨pos, e⟩ := g3 0 []
    refine ⟨.node .ROOT (o ++ (tr ++ [])), by simp [parse, St.init, e], ?_⟩
    rw [strip, stripL_append, e1, stripL_append, e2]
    simp [stripL]

end Verif
