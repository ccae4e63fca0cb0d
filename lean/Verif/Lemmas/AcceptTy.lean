import Verif.Lemmas.AcceptTok
/-!
Helper lemmas: the parsers of the parts of a module that have no instructions accept the instances of their productions.
-/
namespace Verif
open P Spec

section
variable {n : Nat} {m : Bool} {F : List Look} {is : List Item} {p q : G} {ts : List Term}

theorem Ok.ne_nil {rest : List Text} (h : Ok F rest) (hF : F.contains .eof = false) : rest ≠ [] := by
  rintro rfl
  obtain ⟨a, ha, _, hh⟩ := h
  have hne : a ≠ .eof := by
    rintro rfl
    rw [List.contains_iff_mem.mpr ha] at hF
    cases hF
  cases a <;> simp_all [Look.holds]

/-- A token of the kind. -/
theorem Impl.ofTok {k : Kind} (h : ∀ t rest, WellFormed (.tok k t) → Ok F rest → Acc m q [.tok k t] rest) : Impl n m F [oneT k] q := by
  intro l rest hm hw hF
  obtain ⟨g, r, rfl, ⟨t', ht, hi⟩, hm'⟩ := match_cons_one hm
  cases hm'
  simp only [List.mem_singleton] at ht; subst ht
  obtain ⟨t, rfl⟩ := is_tok hi
  exact h t rest (hw _ (.head _)).1 hF

theorem impl_lParen : Impl n true F [lp] lParen := Impl.ofTok fun t rest hw hF => by
  cases (show t = ['('] from (wf_tok hw).1)
  exact acc_lParen

theorem impl_rParen : Impl n m F [rp] (rParen dbg) := Impl.ofTok fun t rest hw hF => by
  cases (show t = [')'] from (wf_tok hw).1)
  exact acc_rParen

theorem impl_kw {w : Text} (hk : reservedWords.contains w = true := by chk) : Impl n true F [oneW w] (keyword w) := by
  intro l rest hm hw hF
  obtain ⟨g, r, rfl, ⟨t', ht, hi⟩, hm'⟩ := match_cons_one hm
  cases hm'
  simp only [List.mem_singleton] at ht; subst ht
  cases is_word hi
  exact acc_keyword hk

theorem impl_ident : Impl n true F [oneT .IDENT] ident := Impl.ofTok fun t rest hw hF => acc_ident (wf_tok hw).1
theorem impl_string : Impl n true F [oneT .STRING] string := Impl.ofTok fun t rest hw hF => acc_string (wf_tok hw).2
theorem impl_refType : Impl n true F [oneT .REF_TYPE] refType := Impl.ofTok fun t rest hw hF => acc_refType (wf_tok hw).1
theorem impl_share : Impl n true F [oneT .SHARE] share := Impl.ofTok fun t rest hw hF => acc_share (wf_tok hw).1
theorem impl_instrName : Impl n true F [oneT .INSTR_NAME] instrName := Impl.ofTok fun t rest hw hF => acc_instrName (wf_tok hw).2
theorem impl_uint (hF : F.contains .eof = false := by chk) : Impl n true F [oneT .UNSIGNED_INT] unsignedInt :=
  Impl.ofTok fun t rest hw h => acc_uint (wf_tok hw).1 (h.ne_nil hF)

/-! ### Refusing -/

theorem rejF_refType (hF : F.all (notWord [t!"funcref", t!"externref"]) = true) :
    RejF true refType F := by
  refine rejF_context (rejF_word [t!"funcref", t!"externref"] ?_ (by chk) hF)
  intro w h
  simp only [List.mem_cons, List.not_mem_nil, or_false, not_or] at h
  simp [h]

theorem rejF_valType (hF : F.all (notWord [t!"i32", t!"i64", t!"f32", t!"f64", t!"v128", t!"funcref", t!"externref"]) = true) :
    RejF true valType F := by
  intro ws hw t ht
  refine refuses_map (refuses_context (rejF_word (f := valTypeTok) [t!"i32", t!"i64", t!"f32", t!"f64", t!"v128", t!"funcref", t!"externref"] ?_ (by chk) hF ws hw t ht))
  intro w h
  simp only [List.mem_cons, List.not_mem_nil, or_false, not_or] at h
  simp [valTypeTok, h]

theorem rejF_share (hF : F.all (notWord [t!"shared", t!"unshared"]) = true) :
    RejF true share F := by
  intro ws hw t ht
  refine refuses_tokP (rejF_word [t!"shared", t!"unshared"] ?_ (by chk) hF ws hw t ht)
  intro w h
  simp only [List.mem_cons, List.not_mem_nil, or_false, not_or] at h
  simp [h]

theorem rejF_index (h1 : (F.all fun a => a.chars.all fun c => !(c == '$')) = true) (h2 : (F.all fun a => a.chars.all fun c => !isDigit c) = true) :
    RejF true index F := rejF_node (rejF_context (rejF_alt (rejF_ident h1) (rejF_alt (rejF_uint h2) rejF_alt_nil)))

/-- A parenthesised form with another keyword. -/
theorem rejF_form {kw : Text} {ps : List G} {k : Kind} (hk : reservedWords.contains kw = true := by chk)
    (hF : (F.all fun a => a != .openW kw) = true := by chk) : RejF true (nodeP k (seq (lParen :: tp dbg (keyword kw) :: ps))) F :=
  rejF_node (rejF_paren hk hF)

/-! ### Types -/

theorem impl_valType : Impl n true F [oneN .VAL_TYPE] valType := by
  intro l rest hm hw hF
  obtain ⟨g, r, rfl, ⟨t', ht, hi⟩, hm'⟩ := match_cons_one hm
  cases hm'
  simp only [List.mem_singleton] at ht; subst ht
  obtain ⟨cs, rfl⟩ := is_node hi
  obtain ⟨p, hp, hmp, _⟩ := (hw _ (.head _)).cases
  simp only [productions, List.mem_singleton] at hp; subst hp
  obtain ⟨g, r, rfl, ⟨t', ht, hi⟩, hm'⟩ := match_cons_one hmp
  cases hm'
  have hg := ((hw _ (.head _)).kids g (.head _)).1
  simp only [List.mem_cons, List.not_mem_nil, or_false] at ht
  rcases ht with rfl | rfl | rfl
  · obtain ⟨w, rfl⟩ := is_tok hi
    have h : w ∈ [t!"i32", t!"i64", t!"f32", t!"f64"] := (wf_tok hg).1
    refine acc_valType ?_
    simp only [List.mem_cons, List.not_mem_nil, or_false] at h
    rcases h with rfl | rfl | rfl | rfl <;> rfl
  · obtain ⟨w, rfl⟩ := is_tok hi
    cases (show w = t!"v128" from (wf_tok hg).1)
    exact acc_valType rfl
  · obtain ⟨w, rfl⟩ := is_tok hi
    have h : w ∈ [t!"funcref", t!"externref"] := (wf_tok hg).1
    refine acc_valType ?_
    simp only [List.mem_cons, List.not_mem_nil, or_false] at h
    rcases h with rfl | rfl <;> rfl

/-- Value types up to the closing parenthesis. -/
theorem impl_valTypes : Impl n m [.close] [manyN .VAL_TYPE] (many dbg (retryOnce dbg valType [])) :=
  Impl.many (Impl.retryOnce impl_valType) (rejF_retryOnce (rejF_valType (by chk)) (by chk))

theorem impl_param : Impl n true F [oneN .PARAM] (param dbg) :=
  Impl.node2 rfl
    (Impl.cons impl_lParen (Impl.cons (Impl.tp impl_kw) (Impl.two
      (Impl.altL (Impl.cons (Impl.tp impl_ident) (Impl.cons (Impl.must (Impl.retryOnce impl_valType)) Impl.nil)))
      (Impl.cons impl_rParen Impl.nil))))
    (Impl.cons impl_lParen (Impl.cons (Impl.tp impl_kw) (Impl.cons
      (Impl.altR (rejF_seq (rejF_tp (rejF_ident (by chk)))) impl_valTypes)
      (Impl.cons impl_rParen Impl.nil))))

theorem impl_result : Impl n true F [oneN .RESULT] (result dbg) :=
  Impl.node1 rfl (Impl.cons impl_lParen (Impl.cons (Impl.tp impl_kw) (Impl.cons impl_valTypes (Impl.cons impl_rParen Impl.nil))))

theorem rejF_param (hF : (F.all fun a => a != .openW t!"param") = true := by chk) : RejF true (param dbg) F := rejF_form (by chk) hF
theorem rejF_result (hF : (F.all fun a => a != .openW t!"result") = true := by chk) : RejF true (result dbg) F := rejF_form (by chk) hF

theorem impl_funcType : Impl n true F [oneN .FUNC_TYPE] (funcType dbg) :=
  Impl.node1 rfl (Impl.cons impl_lParen (Impl.cons (Impl.tp impl_kw)
    (Impl.cons (Impl.many (Impl.retryOnce impl_param) (rejF_retryOnce rejF_param (by chk)))
      (Impl.cons (Impl.many (Impl.retryOnce impl_result) (rejF_retryOnce rejF_result (by chk)))
        (Impl.cons impl_rParen Impl.nil)))))

/-- What may come after limits. -/
def afterLimits : List Look := [.close, .word t!"funcref", .word t!"externref"]

theorem impl_limits : Impl n true afterLimits [oneN .LIMITS] (limits dbg) :=
  Impl.node1 rfl (Impl.cons impl_uint
    (Impl.cons (Impl.opt (Impl.tp impl_uint) (rejF_tp (rejF_uint (by chk))))
      (Impl.cons (Impl.opt (Impl.tp impl_share) (rejF_tp (rejF_share (by chk)))) Impl.nil)))

theorem impl_tableType : Impl n true F [oneN .TABLE_TYPE] (tableType dbg) :=
  Impl.node1 rfl (Impl.context (Impl.cons (impl_limits.mono (by chk)) (Impl.cons (Impl.must (Impl.retryOnce impl_refType)) Impl.nil)))

theorem impl_memoryType : Impl n true [.close] [oneN .MEMORY_TYPE] (memoryType dbg) :=
  Impl.node1 rfl (Impl.context (impl_limits.mono (by chk)))

theorem alt_node {k : Kind} : ∀ {ps : List G}, ps ≠ [] → alt (ps.map (nodeP k)) = nodeP k (alt ps)
  | [], h => absurd rfl h
  | [p], _ => rfl
  | p :: q :: ps, _ => by
    have ih := alt_node (k := k) (ps := q :: ps) (by simp)
    funext s
    simp only [List.map_cons, alt] at ih ⊢
    rw [ih]
    simp only [alt2, nodeP, P.map, P.bind]
    cases p s <;> rfl

theorem impl_globalType : Impl n true F [oneN .GLOBAL_TYPE] (globalType dbg) := by
  unfold globalType
  rw [show alt [nodeP .GLOBAL_TYPE valType,
    nodeP .GLOBAL_TYPE (seq [lParen, tp dbg (keyword t!"mut"), must (tp dbg valType), rParen dbg])] = _ from alt_node (ps := [_, _]) (by simp)]
  exact Impl.node2 rfl (Impl.altL impl_valType)
    (Impl.altP (rejF_valType (by chk)) (Impl.cons impl_lParen (Impl.cons (Impl.tp impl_kw)
      (Impl.cons (Impl.must (Impl.tp impl_valType)) (Impl.cons impl_rParen Impl.nil)))))

theorem impl_index (hF : F.contains .eof = false := by chk) : Impl n true F [oneN .INDEX] index :=
  Impl.node1 rfl (Impl.context (Impl.or (Impl.altL impl_ident)
    (Impl.or (Impl.altR (rejF_ident (by chk)) (impl_uint hF)) Impl.none)))

/-- What may come after a type use. -/
def afterTypeUse : List Look :=
  [.close, .openI, .name, .word t!"block", .openW t!"block", .word t!"loop", .openW t!"loop", .word t!"if", .openW t!"if",
    .word t!"end", .word t!"else", .openW t!"then", .openW t!"local", .openW t!"type", .openW t!"item", .ident, .str, .other]

theorem impl_results {F : List Look} (hF : (F.all fun a => a != .openW t!"result") = true) :
    Impl n m F [manyN .RESULT] (many dbg (tp dbg (result dbg))) := Impl.many (Impl.tp impl_result) (rejF_tp (rejF_result hF))

theorem impl_typeUse : Impl n true afterTypeUse [oneN .TYPE_USE] (typeUse dbg) := by
  unfold typeUse
  rw [show alt [nodeP .TYPE_USE (seq [lParen, tp dbg (keyword t!"type"), must (retryOnce dbg index []), rParen dbg,
      many dbg (tp dbg (param dbg)), many dbg (tp dbg (result dbg))]),
    nodeP .TYPE_USE (seq [many1 dbg (tp dbg (param dbg)), many dbg (tp dbg (result dbg))]),
    nodeP .TYPE_USE (many1 dbg (tp dbg (result dbg)))] = _ from alt_node (ps := [_, _, _]) (by simp)]
  exact Impl.node3 rfl
    (Impl.altL (Impl.cons impl_lParen (Impl.cons (Impl.tp impl_kw) (Impl.cons (Impl.must (Impl.retryOnce impl_index))
      (Impl.cons impl_rParen (Impl.cons (Impl.many (Impl.tp impl_param) (rejF_tp rejF_param))
        (Impl.cons (impl_results (by chk)) Impl.nil)))))))
    (Impl.altP (rejF_paren (by chk) (by chk)) (Impl.altL (Impl.two (Impl.many1 (Impl.tp impl_param) (rejF_tp rejF_param))
      (Impl.cons (impl_results (by chk)) Impl.nil))))
    (Impl.altP (rejF_paren (by chk) (by chk)) (Impl.altP (rejF_seq (rejF_many1 (rejF_tp rejF_param)))
      (Impl.many1 (Impl.tp impl_result) (rejF_tp rejF_result))))

/-- The type use of a block. -/
theorem rejF_typeUse (h1 : (F.all fun a => a != .openW t!"type") = true := by chk) (h2 : (F.all fun a => a != .openW t!"param") = true := by chk)
    (h3 : (F.all fun a => a != .openW t!"result") = true := by chk) : RejF true (typeUse dbg) F :=
  rejF_alt (rejF_form (by chk) h1) (rejF_alt (rejF_node (rejF_seq (rejF_many1 (rejF_tp (rejF_param h2)))))
    (rejF_alt (rejF_node (rejF_many1 (rejF_tp (rejF_result h3)))) rejF_alt_nil))

theorem impl_local : Impl n true F [oneN .LOCAL] (localP dbg) :=
  Impl.node2 rfl
    (Impl.cons impl_lParen (Impl.cons (Impl.tp impl_kw) (Impl.two
      (Impl.altL (Impl.cons (Impl.tp impl_ident) (Impl.cons (Impl.retry impl_valType) Impl.nil)))
      (Impl.cons impl_rParen Impl.nil))))
    (Impl.cons impl_lParen (Impl.cons (Impl.tp impl_kw) (Impl.cons
      (Impl.altR (rejF_seq (rejF_tp (rejF_ident (by chk)))) impl_valTypes)
      (Impl.cons impl_rParen Impl.nil))))

theorem impl_moduleName : Impl n true F [oneN .MODULE_NAME] moduleName := Impl.node1 rfl impl_string
theorem impl_name : Impl n true F [oneN .NAME] nameP := Impl.node1 rfl impl_string

theorem impl_import : Impl n true F [oneN .IMPORT] (importP dbg) :=
  Impl.node1 rfl (Impl.cons impl_lParen (Impl.cons (Impl.tp impl_kw) (Impl.cons (Impl.must (Impl.tp impl_moduleName))
    (Impl.cons (Impl.must (Impl.tp impl_name)) (Impl.cons impl_rParen Impl.nil)))))

theorem impl_export : Impl n true F [oneN .EXPORT] (exportP dbg) :=
  Impl.node1 rfl (Impl.cons impl_lParen (Impl.cons (Impl.tp impl_kw)
    (Impl.cons (Impl.must (Impl.tp impl_name)) (Impl.cons impl_rParen Impl.nil))))

/-- An optional name. -/
theorem impl_optIdent (hF : (F.all fun a => a.chars.all fun c => !(c == '$')) = true := by chk) : Impl n m F [optT .IDENT] (optG (tp dbg ident)) :=
  Impl.opt (Impl.tp impl_ident) (rejF_tp (rejF_ident hF))

theorem impl_importGlobal : Impl n true F [oneN .IMPORT_DESC_GLOBAL_TYPE] (importDescGlobalType dbg) :=
  Impl.node1 rfl (Impl.cons impl_lParen (Impl.cons (Impl.tp impl_kw) (Impl.cons impl_optIdent
    (Impl.cons (Impl.must (Impl.retryOnce impl_globalType)) (Impl.cons impl_rParen Impl.nil)))))

theorem impl_importMemory : Impl n true F [oneN .IMPORT_DESC_MEMORY_TYPE] (importDescMemoryType dbg) :=
  Impl.node1 rfl (Impl.cons impl_lParen (Impl.cons (Impl.tp impl_kw) (Impl.cons impl_optIdent
    (Impl.cons (Impl.must (Impl.retry impl_memoryType)) (Impl.cons impl_rParen Impl.nil)))))

theorem impl_importTable : Impl n true F [oneN .IMPORT_DESC_TABLE_TYPE] (importDescTableType dbg) :=
  Impl.node1 rfl (Impl.cons impl_lParen (Impl.cons (Impl.tp impl_kw) (Impl.cons impl_optIdent
    (Impl.cons (Impl.must (Impl.retry impl_tableType)) (Impl.cons impl_rParen Impl.nil)))))

theorem impl_importTypeUse : Impl n true F [oneN .IMPORT_DESC_TYPE_USE] (importDescTypeUse dbg) :=
  Impl.node1 rfl (Impl.cons impl_lParen (Impl.cons (Impl.tp impl_kw) (Impl.cons impl_optIdent
    (Impl.cons (Impl.opt (Impl.retryOnce (impl_typeUse.mono (by chk))) (rejF_retryOnce rejF_typeUse (by chk))) (Impl.cons impl_rParen Impl.nil)))))

/-- Choosing by the word after the parenthesis. -/
theorem acc_peekParen {f : Text → G} {w : Text} {gs : List Green} {rest r : List Text} (e : lexL gs ++ rest = ['('] :: w :: r) (hwd : IsWord w)
    (hacc : Acc true (f w) gs rest) : Acc true (P.bind (peekParenWord dbg) f) gs rest := by
  intro t ht
  obtain ⟨t1, he1, l1⟩ := Rdy.at_lpar (e ▸ ht)
  obtain ⟨tr, t2, g2, b2, r2, n2⟩ := gives_trivias (dbg := dbg) l1
  obtain ⟨t3, rfl, a3, l3⟩ := r2.at_word (word_wasm hwd)
  obtain ⟨o, t4, g4, hh⟩ := hacc t ht
  refine ⟨o, t4, gives_bind (a := w) (t' := t) (gives_peek (t' := t3) ?_) g4, hh⟩
  rw [he1]
  exact gives_bind (gives_lit1 '(') (gives_bind g2 (gives_word hwd a3))

/-- A form found by its keyword. -/
theorem Impl.dispatch {f : Text → G} (h : ∀ t ∈ ts, ∃ w, firstT t = [.openW w] ∧ reservedWords.contains w = true ∧ Impl n true F [.one [t]] (f w)) :
    Impl n true F [.one ts] (P.bind (peekParenWord dbg) f) := by
  intro l rest hm hw hF
  obtain ⟨g, r, rfl, ⟨t', ht, hi⟩, hm'⟩ := match_cons_one hm
  cases hm'
  obtain ⟨w, h1, h2, h3⟩ := h t' ht
  obtain ⟨a, ha, _, hh⟩ := first_sound (hw g (.head _)).1 t' hi (by
    cases t' with
    | word => cases h1
    | tok => simp [termOk, h1]
    | node => simp [termOk, h1]) rest
  rw [h1, List.mem_singleton] at ha; subst ha
  obtain ⟨r, hr⟩ := hh
  have hacc := h3 [g] rest (.one (.head _) hi .nil) hw hF
  exact acc_peekParen (by rw [lexL_cons, lexL_nil, List.append_nil, hr]) (reserved_word (List.contains_iff_mem.mp h2)) hacc

theorem impl_importDesc : Impl n true F [.one importTerms] (importDesc dbg) := by
  refine Impl.context (Impl.dispatch ?_)
  intro t ht
  simp only [importTerms, List.mem_cons, List.not_mem_nil, or_false] at ht
  rcases ht with rfl | rfl | rfl | rfl
  · exact ⟨t!"func", rfl, by chk, impl_importTypeUse⟩
  · exact ⟨t!"global", rfl, by chk, impl_importGlobal⟩
  · exact ⟨t!"memory", rfl, by chk, impl_importMemory⟩
  · exact ⟨t!"table", rfl, by chk, impl_importTable⟩

theorem impl_exportVariant {kw : Text} {k : Kind} (hp : productions k = [[lp, oneW kw, oneN .INDEX, rp]])
    (hk : reservedWords.contains kw = true := by chk) : Impl n true F [oneN k] (exportDescVariant dbg kw k) :=
  Impl.node1 hp (Impl.cons impl_lParen (Impl.cons (Impl.tp (impl_kw hk)) (Impl.cons (Impl.must (Impl.retryOnce impl_index)) (Impl.cons impl_rParen Impl.nil)))
    (by rw [List.all_cons, Bool.and_eq_true]; exact ⟨by simpa [itemOk, oneW, Item.terms, termOk] using hk, rfl⟩))

theorem impl_exportDesc : Impl n true F [.one exportTerms] (exportDesc dbg) := by
  refine Impl.context (Impl.dispatch ?_)
  intro t ht
  simp only [exportTerms, List.mem_cons, List.not_mem_nil, or_false] at ht
  rcases ht with rfl | rfl | rfl | rfl
  · exact ⟨t!"func", rfl, by chk, impl_exportVariant rfl⟩
  · exact ⟨t!"table", rfl, by chk, impl_exportVariant rfl⟩
  · exact ⟨t!"memory", rfl, by chk, impl_exportVariant rfl⟩
  · exact ⟨t!"global", rfl, by chk, impl_exportVariant rfl⟩

theorem impl_memUse : Impl n true F [oneN .MEM_USE] (memUse dbg) :=
  Impl.node1 rfl (Impl.cons impl_lParen (Impl.cons (Impl.tp impl_kw) (Impl.cons (Impl.must (Impl.tp impl_index)) (Impl.cons impl_rParen Impl.nil))))

theorem impl_tableUse : Impl n true F [oneN .TABLE_USE] (tableUse dbg) :=
  Impl.node1 rfl (Impl.cons impl_lParen (Impl.cons (Impl.tp impl_kw) (Impl.cons (Impl.must (Impl.tp impl_index)) (Impl.cons impl_rParen Impl.nil))))

theorem impl_strings : Impl n m [.close] [.many [.tok .STRING]] (many dbg (retryOnce dbg string [])) :=
  Impl.many (Impl.retryOnce impl_string) (rejF_retryOnce (rejF_string (by chk)) (by chk))

theorem impl_data : Impl n true F [oneN .DATA] (dataP dbg) :=
  Impl.node1 rfl (Impl.cons impl_lParen (Impl.cons (Impl.tp impl_kw) (Impl.cons impl_strings (Impl.cons impl_rParen Impl.nil))))

end

end Verif
