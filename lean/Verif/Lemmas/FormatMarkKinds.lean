import Verif.Lemmas.FormatMarkSteps
/-!
Helper lemmas for C59: the documents of the nodes have the texts of the nodes, one lemma for each kind of node (as in
`FormatKinds`).
-/
namespace Verif.Txt
open Spec

variable {o : FmtOpts} {ss : List Spot} {cs : List Green}

theorem Kids.mt {is : List Item} (hk : Kids o cs ss) (h : Match is (signif cs)) : Match is ((sig ss).map (·.g)) := by
  rw [sig_map, hk.gs]; exact h

theorem done_only {s : Spot} (hk : Kids o cs ss) (h : sig ss = [s]) (hs : s ∈ ss) (hb : isBlank s.g = false) : Done o ss s.d := by
  have h1 := hk.tail
  rw [h] at h1
  have h2 : cmts o s.after = [] := h1
  unfold Done
  rw [(hk.ok s hs).doc hb, h]
  simp [full, h2]

theorem term_node {k : Kind} {g : Green} (h : (Term.node k).is g) : g.isNodeOf k = true := by
  cases g with
  | tok _ _ => exact h.elim
  | node k' c => simp only [Term.is] at h; subst h; simp [Green.isNodeOf]

section
variable (hlb : True) (hk : Kids o cs ss)
include hlb hk

theorem done_funcType (h : Prod .FUNC_TYPE cs) : Done o ss (fmtFuncType o ss) := by
  prods h
  unfold fmtFuncType
  picks
  exact at_close hlb hk (at_parts hlb hk (at_parts hlb hk (at_kw hlb hk (at_lparen hlb hk (at_init (hk.mt h)))) isSep_space) isSep_space)

theorem done_globalType (h : Prod .GLOBAL_TYPE cs) : Done o ss (fmtGlobalType o ss) := by
  prods h
  unfold fmtGlobalType
  picks
  rcases h with h | h
  · obtain ⟨s, h1, h2, h3, t, h4, h5⟩ := only (hk.mt h)
    simp only [List.mem_singleton] at h4
    subst h4
    rw [sel_only h1 _ rfl, if_neg (by simp [Pick.skips_on (q := .tok .L_PAREN) rfl h5]), sel_only h1 _ rfl,
      if_pos (Pick.takes_on rfl h5)]
    exact done_only hk h1 h2 h3
  · have h1 := at_close hlb hk (at_part hlb hk (o := o) (q := .node [.VAL_TYPE]) (at_kw hlb hk (o := o) (at_lparen hlb hk (o := o) (at_init (hk.mt h)))) isSep_space)
    have h0 : ∃ s, sel (.tok .L_PAREN) 0 ss = some s := by
      obtain ⟨g, r, h1, ⟨t, h2, h3⟩, h4⟩ := match_one_inv (hk.mt h)
      obtain ⟨s, l, h5, rfl, rfl⟩ := map_eq_cons' h1
      simp only [List.mem_singleton] at h2
      subst h2
      refine ⟨s, ?_⟩
      unfold sel
      rw [sels_sig rfl, h5]
      simp [sels, List.filter_cons, Pick.takes_on (q := .tok .L_PAREN) rfl h3]
    obtain ⟨s, hs⟩ := h0
    rw [hs]
    exact h1

theorem done_limits (h : Prod .LIMITS cs) (hl : ∀ t, Green.tok .SHARE t ∉ cs) : Done o ss (fmtLimits o ss) := by
  prods h
  have h' : Match [oneT .UNSIGNED_INT, optT .UNSIGNED_INT] (signif cs) := by
    obtain ⟨g, r, h1, ⟨t, h2, h3⟩, h4⟩ := match_one_inv h
    rw [h1]
    refine .one h2 h3 ?_
    have hno : ∀ {l}, (∀ g ∈ l, g ∈ cs) → Match [optT .SHARE] l → Match [] l := by
      intro l hl' hm
      rcases match_opt_inv hm with hm | ⟨g, r, rfl, ⟨t, h2, h3⟩, _⟩
      · exact hm
      · simp only [List.mem_singleton] at h2
        subst h2
        cases g with
        | node _ _ => exact h3.elim
        | tok k t => cases h3; exact absurd (hl' _ (.head _)) (hl t)
    have hsub : ∀ g ∈ r, g ∈ cs := fun g hg => by
      have : g ∈ signif cs := by rw [h1]; exact .tail _ hg
      exact (List.mem_filter.mp this).1
    rcases match_opt_inv h4 with h4 | ⟨g2, r2, rfl, ⟨t2, h5, h6⟩, h7⟩
    · exact .skip (hno hsub h4)
    · exact .opt h5 h6 (hno (fun g hg => hsub g (.tail _ hg)) h7)
  unfold fmtLimits
  picks
  exact At.done hk (at_tok hlb hk (at_first hlb hk (at_init (hk.mt h'))) isSep_space)

theorem done_memoryType (h : Prod .MEMORY_TYPE cs) : Done o ss (fmtMemoryType ss) := by
  prods h
  unfold fmtMemoryType
  picks
  obtain ⟨s, h1, h2, h3, t, h4, h5⟩ := only (hk.mt h)
  simp only [List.mem_singleton] at h4
  subst h4
  rw [sel_only h1 _ rfl, if_pos (Pick.takes_on rfl h5)]
  exact done_only hk h1 h2 h3

theorem done_param (h : Prod .PARAM cs) : Done o ss (fmtParam o ss) := by
  prods h
  unfold fmtParam
  picks
  rcases h with h | h
  · have h := match_wider (js := [lp, oneW t!"param", oneT .IDENT, manyN .VAL_TYPE, rp]) h rfl
    exact at_close hlb hk (at_parts hlb hk (at_tok hlb hk (at_kw hlb hk (at_lparen hlb hk (at_init (hk.mt h)))) isSep_space) isSep_space)
  · exact at_close hlb hk (at_parts hlb hk (at_no_tok (at_kw hlb hk (at_lparen hlb hk (at_init (hk.mt h))))) isSep_space)

theorem done_local (h : Prod .LOCAL cs) : Done o ss (fmtLocal o ss) := by
  prods h
  unfold fmtLocal
  picks
  rcases h with h | h
  · have h := match_wider (js := [lp, oneW t!"local", oneT .IDENT, manyN .VAL_TYPE, rp]) h rfl
    exact at_close hlb hk (at_parts hlb hk (at_tok hlb hk (at_kw hlb hk (at_lparen hlb hk (at_init (hk.mt h)))) isSep_space) isSep_space)
  · exact at_close hlb hk (at_parts hlb hk (at_no_tok (at_kw hlb hk (at_lparen hlb hk (at_init (hk.mt h))))) isSep_space)

theorem done_result (h : Prod .RESULT cs) : Done o ss (fmtResult o ss) := by
  prods h
  unfold fmtResult
  picks
  exact at_close hlb hk (at_parts hlb hk (at_kw hlb hk (at_lparen hlb hk (at_init (hk.mt h)))) isSep_space)

theorem done_tableType (h : Prod .TABLE_TYPE cs) : Done o ss (fmtTableType o ss) := by
  prods h
  unfold fmtTableType
  picks
  exact At.done hk (at_tok hlb hk (at_head hlb hk (at_init (hk.mt h))) isSep_space)

theorem done_blockLike {k : Kind} {w : Text} (hkw : k = .BLOCK_BLOCK ∧ w = t!"block" ∨ k = .BLOCK_LOOP ∧ w = t!"loop")
    (h : Prod k cs) (hl : ¬ Lossy k cs) : Done o ss (fmtBlockLike o w ss) := by
  have h' : Match [oneW w, optT .IDENT, optN .BLOCK_TYPE, instrs, oneW t!"end", optT .IDENT] (signif cs) ∨
      Match [lp, oneW w, optT .IDENT, optN .BLOCK_TYPE, instrs, rp, optT .IDENT] (signif cs) := by
    rcases hkw with ⟨rfl, rfl⟩ | ⟨rfl, rfl⟩ <;> (prods h; exact h)
  have hl' : ¬ TrailingLabel (signif cs) := by
    rcases hkw with ⟨rfl, rfl⟩ | ⟨rfl, rfl⟩ <;> exact hl
  clear h hl
  unfold fmtBlockLike
  picks
  have hh : IsSep o [.hardLine] := isSep_hardLine hlb
  have hw : w = t!"block" ∨ w = t!"loop" := by rcases hkw with h | h <;> simp [h.2]
  clear hkw
  rcases hw with rfl | rfl
  all_goals
    rcases h' with h | h
    · rcases label_cases (is := [_]) (js := [_, _, _]) h rfl rfl hl' with h | h
      · exact At.done hk (at_tok hlb hk (at_tokAs hlb hk (at_no_rparen (at_nested hlb hk (at_part hlb hk (at_tok hlb hk
          (at_kw hlb hk (at_no_lparen (at_init (hk.mt h)))) isSep_space) isSep_space))) hh) isSep_space)
      · exact At.done hk (at_no_tok (at_tokAs hlb hk (at_no_rparen (at_nested hlb hk (at_part hlb hk (at_no_tok
          (at_kw hlb hk (at_no_lparen (at_init (hk.mt h))))) isSep_space))) hh))
    · rcases label_cases (is := [_, _]) (js := [_, _, _]) h rfl rfl hl' with h | h
      · exact At.done hk (at_tok hlb hk (at_no_tokAs (at_rparen hlb hk (at_nested hlb hk (at_part hlb hk (at_tok hlb hk
          (at_kw hlb hk (at_lparen hlb hk (at_init (hk.mt h)))) isSep_space) isSep_space)))) isSep_space)
      · exact At.done hk (at_no_tok (at_no_tokAs (at_rparen hlb hk (at_nested hlb hk (at_part hlb hk (at_no_tok
          (at_kw hlb hk (at_lparen hlb hk (at_init (hk.mt h))))) isSep_space)))))

omit hlb hk in
theorem at_nest {pre is : List Item} {fr : Bool} {d e t : List Doc} {i : Nat} (hlb : True) (h : At o ss pre is fr ⟨d ++ e, t⟩) :
    At o ss pre is fr ⟨d ++ [.nest i (.list e)], t⟩ := by
  obtain ⟨a, b, h1, h2, h3, h4⟩ := h
  exact ⟨a, b, h1, h2, h3, good_nest h4⟩

theorem at_then {p : Pr} {fr : Bool} {pre is : List Item} {it : Item} (h : At o ss pre (it :: is) fr p)
    (hc : stepOk (.node [.BLOCK_IF_THEN]) 0 pre it is = true := by decide) :
    At o ss (pre ++ [it]) is false (fmtThen o (sel (.node [.BLOCK_IF_THEN]) 0 ss) p) := by
  refine at_sel (F := fun x => fmtThen o x p) h hc rfl ?_
  intro s hs hb hh done hm hg
  exact good_then hg (hk.ok s hs) hb

theorem done_blockIf (h : Prod .BLOCK_IF cs) (hl : ¬ Lossy .BLOCK_IF cs) : Done o ss (fmtBlockIf o ss) := by
  prods h
  have hl' : ¬ TrailingLabel (signif cs) := hl
  unfold fmtBlockIf
  picks
  have hh : IsSep o [.hardLine] := isSep_hardLine hlb
  rcases h with h | h
  · rcases label_cases (is := [_]) (js := [_, _, _, _]) h rfl rfl hl' with h | h
    · have h1 := at_part hlb hk (o := o) (q := .node [.BLOCK_IF_ELSE]) (at_then hlb hk (o := o) (at_no_parts (o := o) (seps := [.hardLine]) (q := pickInstr) (at_part hlb hk (o := o) (q := .node [.BLOCK_TYPE])
        (at_tok hlb hk (o := o) (k := .IDENT) (n := 0) (at_kw hlb hk (o := o) (at_no_lparen (o := o) (at_init (hk.mt h)))) isSep_space) isSep_space))) hh
      rw [ifBody_prefix] at h1
      rw [sel_none (q := .tok .L_PAREN) (n := 0) h1 (by decide)]
      exact At.done hk (at_tok hlb hk (at_tokAs hlb hk (at_no_rparen h1) hh) isSep_space)
    · have h1 := at_part hlb hk (o := o) (q := .node [.BLOCK_IF_ELSE]) (at_then hlb hk (o := o) (at_no_parts (o := o) (seps := [.hardLine]) (q := pickInstr) (at_part hlb hk (o := o) (q := .node [.BLOCK_TYPE])
        (at_no_tok (o := o) (sep := .space) (k := .IDENT) (n := 0) (at_kw hlb hk (o := o) (at_no_lparen (o := o) (at_init (hk.mt h))))) isSep_space))) hh
      rw [ifBody_prefix] at h1
      rw [sel_none (q := .tok .L_PAREN) (n := 0) h1 (by decide)]
      exact At.done hk (at_no_tok (at_tokAs hlb hk (at_no_rparen h1) hh))
  · obtain ⟨s, hs⟩ := sel_some (q := .tok .L_PAREN) (hk.mt h) rfl
    rw [hs]
    rcases opt_cases (is := [_, _]) h with h | h
    · have h1 := at_part hlb hk (o := o) (q := .node [.BLOCK_IF_ELSE]) (at_then hlb hk (o := o) (at_parts hlb hk (o := o) (seps := [.hardLine]) (q := pickInstr) (at_part hlb hk (o := o) (q := .node [.BLOCK_TYPE])
        (at_tok hlb hk (o := o) (k := .IDENT) (n := 0) (at_kw hlb hk (o := o) (at_lparen hlb hk (o := o) (at_init (hk.mt h)))) isSep_space) isSep_space) hh)) hh
      rw [ifBody_prefix] at h1
      exact At.done hk (at_no_tok (at_no_tokAs (at_rparen hlb hk (at_nest hlb h1))))
    · have h1 := at_part hlb hk (o := o) (q := .node [.BLOCK_IF_ELSE]) (at_then hlb hk (o := o) (at_parts hlb hk (o := o) (seps := [.hardLine]) (q := pickInstr) (at_part hlb hk (o := o) (q := .node [.BLOCK_TYPE])
        (at_no_tok (o := o) (sep := .space) (k := .IDENT) (n := 0) (at_kw hlb hk (o := o) (at_lparen hlb hk (o := o) (at_init (hk.mt h))))) isSep_space) hh)) hh
      rw [ifBody_prefix] at h1
      exact At.done hk (at_no_tok (at_no_tokAs (at_rparen hlb hk (at_nest hlb h1))))

omit hlb hk in
theorem Done.nest {i : Nat} {d : Doc} (h : Done o ss d) : Done o ss (.nest i d) := h

theorem done_then (h : Prod .BLOCK_IF_THEN cs) : Done o ss (fmtBranch o t!"then" ss) := by
  prods h
  unfold fmtBranch
  picks
  have hh : IsSep o [.hardLine] := isSep_hardLine hlb
  rcases h with h | h
  · exact Done.nest (At.done hk (at_no_rparen (at_parts hlb hk (at_no_tok (at_no_kw (at_no_lparen (at_init (hk.mt h))))) hh)))
  · exact Done.nest (At.done hk (at_rparen hlb hk (at_parts hlb hk (at_no_tok (at_kw hlb hk (at_lparen hlb hk (at_init (hk.mt h))))) hh)))

theorem done_else (h : Prod .BLOCK_IF_ELSE cs) : Done o ss (fmtBranch o t!"else" ss) := by
  prods h
  unfold fmtBranch
  picks
  have hh : IsSep o [.hardLine] := isSep_hardLine hlb
  rcases h with h | h
  · exact Done.nest (At.done hk (at_no_rparen (at_parts hlb hk (at_tok hlb hk (at_kw hlb hk (at_no_lparen (at_init (hk.mt h)))) isSep_space) hh)))
  · exact Done.nest (At.done hk (at_rparen hlb hk (at_parts hlb hk (at_no_tok (at_kw hlb hk (at_lparen hlb hk (at_init (hk.mt h))))) hh)))

theorem done_blockType (h : Prod .BLOCK_TYPE cs) : Done o ss (fmtBlockType ss) := by
  prods h
  unfold fmtBlockType
  picks
  obtain ⟨s, h1, h2, h3, t, h4, h5⟩ := only (hk.mt h)
  simp only [List.mem_cons, List.not_mem_nil, or_false] at h4
  rw [sel_only h1 _ rfl, sel_only h1 _ rfl]
  rcases h4 with rfl | rfl
  · rw [if_pos (Pick.takes_on rfl h5)]
    exact done_only hk h1 h2 h3
  · rw [if_neg (by simp [Pick.skips_on (q := .node [.RESULT]) rfl h5]), if_pos (Pick.takes_on rfl h5)]
    exact done_only hk h1 h2 h3

theorem done_plainInstr (h : Prod .PLAIN_INSTR cs) : Done o ss (fmtPlainInstr o ss) := by
  prods h
  unfold fmtPlainInstr
  picks
  rcases h with h | h
  · exact Done.nest (At.done hk (at_rparen hlb hk (at_operands hlb hk (at_instrName hlb hk (at_lparen hlb hk (at_init (hk.mt h)))))))
  · exact Done.nest (At.done hk (at_no_rparen (at_operands hlb hk (at_instrName hlb hk (at_no_lparen (at_init (hk.mt h)))))))

theorem done_data (h : Prod .DATA cs) : Done o ss (fmtData o ss) := by
  prods h
  unfold fmtData
  picks
  exact at_close hlb hk (at_toks hlb hk (at_kw hlb hk (at_lparen hlb hk (at_init (hk.mt h)))) isSep_space)

theorem done_elem (h : Prod .ELEM cs) : Done o ss (fmtElem o ss) := by
  prods h
  unfold fmtElem
  picks
  rcases h with h | h
  · exact at_close hlb hk (at_owns hlb hk (at_no_parts (at_kw hlb hk (at_lparen hlb hk (at_init (hk.mt h))))))
  · exact at_close hlb hk (at_no_owns (at_parts hlb hk (at_kw hlb hk (at_lparen hlb hk (at_init (hk.mt h)))) isSep_space))

theorem done_offset (h : Prod .OFFSET cs) : Done o ss (fmtExpr o t!"offset" ss) := by
  prods h
  unfold fmtExpr
  picks
  rcases h with h | h
  · exact At.done hk (at_rparen hlb hk (at_nested hlb hk (at_kw hlb hk (at_lparen hlb hk (at_init (hk.mt h))))))
  · have h := match_wider (js := [instrs]) h rfl
    exact At.done hk (at_no_rparen (at_nested hlb hk (at_no_kw (at_no_lparen (at_init (hk.mt h))))))

theorem done_elemExpr (h : Prod .ELEM_EXPR cs) : Done o ss (fmtExpr o t!"item" ss) := by
  prods h
  unfold fmtExpr
  picks
  rcases h with h | h
  · exact At.done hk (at_rparen hlb hk (at_nested hlb hk (at_kw hlb hk (at_lparen hlb hk (at_init (hk.mt h))))))
  · have h := match_wider (js := [instrs]) h rfl
    exact At.done hk (at_no_rparen (at_nested hlb hk (at_no_kw (at_no_lparen (at_init (hk.mt h))))))

theorem done_export (h : Prod .EXPORT cs) : Done o ss (fmtExport o ss) := by
  prods h
  unfold fmtExport
  picks
  exact at_close hlb hk (at_part hlb hk (at_kw hlb hk (at_lparen hlb hk (at_init (hk.mt h)))) isSep_space)

theorem done_exportDescFunc (h : Prod .EXPORT_DESC_FUNC cs) : Done o ss (fmtExportDesc o ss) := by
  prods h
  unfold fmtExportDesc
  picks
  exact at_close hlb hk (at_part hlb hk (at_instrName hlb hk (at_lparen hlb hk (at_init (hk.mt h)))) isSep_space)

theorem done_exportDescTable (h : Prod .EXPORT_DESC_TABLE cs) : Done o ss (fmtExportDesc o ss) := by
  prods h
  unfold fmtExportDesc
  picks
  exact at_close hlb hk (at_part hlb hk (at_instrName hlb hk (at_lparen hlb hk (at_init (hk.mt h)))) isSep_space)

theorem done_exportDescMemory (h : Prod .EXPORT_DESC_MEMORY cs) : Done o ss (fmtExportDesc o ss) := by
  prods h
  unfold fmtExportDesc
  picks
  exact at_close hlb hk (at_part hlb hk (at_instrName hlb hk (at_lparen hlb hk (at_init (hk.mt h)))) isSep_space)

theorem done_exportDescGlobal (h : Prod .EXPORT_DESC_GLOBAL cs) : Done o ss (fmtExportDesc o ss) := by
  prods h
  unfold fmtExportDesc
  picks
  exact at_close hlb hk (at_part hlb hk (at_instrName hlb hk (at_lparen hlb hk (at_init (hk.mt h)))) isSep_space)

theorem done_import (h : Prod .IMPORT cs) : Done o ss (fmtImport o ss) := by
  prods h
  unfold fmtImport
  picks
  exact at_close hlb hk (at_part hlb hk (at_part hlb hk (at_kw hlb hk (at_lparen hlb hk (at_init (hk.mt h)))) isSep_space) isSep_space)

theorem done_namedTypeUse (h : Prod .IMPORT_DESC_TYPE_USE cs) : Done o ss (fmtNamed o t!"func" .TYPE_USE ss) := by
  prods h
  unfold fmtNamed
  picks
  exact at_close hlb hk (at_part hlb hk (at_tok hlb hk (at_kw hlb hk (at_lparen hlb hk (at_init (hk.mt h)))) isSep_space) isSep_space)

theorem done_namedTableType (h : Prod .IMPORT_DESC_TABLE_TYPE cs) : Done o ss (fmtNamed o t!"table" .TABLE_TYPE ss) := by
  prods h
  unfold fmtNamed
  picks
  exact at_close hlb hk (at_part hlb hk (at_tok hlb hk (at_kw hlb hk (at_lparen hlb hk (at_init (hk.mt h)))) isSep_space) isSep_space)

theorem done_namedMemoryType (h : Prod .IMPORT_DESC_MEMORY_TYPE cs) : Done o ss (fmtNamed o t!"memory" .MEMORY_TYPE ss) := by
  prods h
  unfold fmtNamed
  picks
  exact at_close hlb hk (at_part hlb hk (at_tok hlb hk (at_kw hlb hk (at_lparen hlb hk (at_init (hk.mt h)))) isSep_space) isSep_space)

theorem done_namedGlobalType (h : Prod .IMPORT_DESC_GLOBAL_TYPE cs) : Done o ss (fmtNamed o t!"global" .GLOBAL_TYPE ss) := by
  prods h
  unfold fmtNamed
  picks
  exact at_close hlb hk (at_part hlb hk (at_tok hlb hk (at_kw hlb hk (at_lparen hlb hk (at_init (hk.mt h)))) isSep_space) isSep_space)

theorem done_namedFieldType (h : Prod .MODULE_FIELD_TYPE cs) : Done o ss (fmtNamed o t!"type" .FUNC_TYPE ss) := by
  prods h
  unfold fmtNamed
  picks
  exact at_close hlb hk (at_part hlb hk (at_tok hlb hk (at_kw hlb hk (at_lparen hlb hk (at_init (hk.mt h)))) isSep_space) isSep_space)

theorem done_useMemUse (h : Prod .MEM_USE cs) : Done o ss (fmtUse o t!"memory" ss) := by
  prods h
  unfold fmtUse
  picks
  exact at_close hlb hk (at_part hlb hk (at_kw hlb hk (at_lparen hlb hk (at_init (hk.mt h)))) isSep_space)

theorem done_useTableUse (h : Prod .TABLE_USE cs) : Done o ss (fmtUse o t!"table" ss) := by
  prods h
  unfold fmtUse
  picks
  exact at_close hlb hk (at_part hlb hk (at_kw hlb hk (at_lparen hlb hk (at_init (hk.mt h)))) isSep_space)

theorem done_useStart (h : Prod .MODULE_FIELD_START cs) : Done o ss (fmtUse o t!"start" ss) := by
  prods h
  unfold fmtUse
  picks
  exact at_close hlb hk (at_part hlb hk (at_kw hlb hk (at_lparen hlb hk (at_init (hk.mt h)))) isSep_space)

theorem done_fieldExport (h : Prod .MODULE_FIELD_EXPORT cs) : Done o ss (fmtFieldExport o ss) := by
  prods h
  unfold fmtFieldExport
  picks
  exact at_close hlb hk (at_part hlb hk (at_part hlb hk (at_kw hlb hk (at_lparen hlb hk (at_init (hk.mt h)))) isSep_space) isSep_space)

theorem done_fieldImport (h : Prod .MODULE_FIELD_IMPORT cs) : Done o ss (fmtFieldImport o ss) := by
  prods h
  unfold fmtFieldImport
  picks
  exact at_close hlb hk (at_part hlb hk (at_part hlb hk (at_part hlb hk (at_kw hlb hk (at_lparen hlb hk (at_init (hk.mt h)))) isSep_space) isSep_space) isSep_space)

theorem done_fieldGlobal (h : Prod .MODULE_FIELD_GLOBAL cs) : Done o ss (fmtFieldGlobal o ss) := by
  prods h
  unfold fmtFieldGlobal
  picks
  exact at_close hlb hk (at_nested hlb hk (at_part hlb hk (at_part hlb hk (at_part hlb hk (at_tok hlb hk (at_kw hlb hk (at_lparen hlb hk (at_init (hk.mt h)))) isSep_space) isSep_space) isSep_space) isSep_space))

theorem done_fieldData (h : Prod .MODULE_FIELD_DATA cs) : Done o ss (fmtFieldData o ss) := by
  prods h
  unfold fmtFieldData
  picks
  exact at_close hlb hk (at_toks hlb hk (at_own hlb hk (at_part hlb hk (at_tok hlb hk (at_kw hlb hk (at_lparen hlb hk (at_init (hk.mt h)))) isSep_space) isSep_space)) (isSep_softLine hlb))

theorem done_fieldElem (h : Prod .MODULE_FIELD_ELEM cs) : Done o ss (fmtFieldElem o ss) := by
  prods h
  unfold fmtFieldElem
  picks
  rcases h with h | h | h
  · exact at_close hlb hk (at_part hlb hk (at_no_own (at_no_part (at_tokAs hlb hk (at_tok hlb hk (at_kw hlb hk (at_lparen hlb hk (at_init (hk.mt h)))) isSep_space) isSep_space))) isSep_space)
  · exact at_close hlb hk (at_part hlb hk (at_no_own (at_no_part (at_no_tokAs (at_tok hlb hk (at_kw hlb hk (at_lparen hlb hk (at_init (hk.mt h)))) isSep_space)))) isSep_space)
  · exact at_close hlb hk (at_part hlb hk (at_own hlb hk (at_part hlb hk (at_no_tokAs (at_tok hlb hk (at_kw hlb hk (at_lparen hlb hk (at_init (hk.mt h)))) isSep_space)) isSep_space)) isSep_space)

theorem done_fieldMemory (h : Prod .MODULE_FIELD_MEMORY cs) : Done o ss (fmtFieldMemory o ss) := by
  prods h
  unfold fmtFieldMemory
  picks
  rcases one_cases (is := [_, _, _, _, _]) h with h | h
  · exact at_close hlb hk (at_part hlb hk (at_no_part (at_part hlb hk (at_part hlb hk (at_tok hlb hk (at_kw hlb hk (at_lparen hlb hk (at_init (hk.mt h)))) isSep_space) isSep_space) isSep_space)) isSep_space)
  · exact at_close hlb hk (at_no_part (at_part hlb hk (at_part hlb hk (at_part hlb hk (at_tok hlb hk (at_kw hlb hk (at_lparen hlb hk (at_init (hk.mt h)))) isSep_space) isSep_space) isSep_space) isSep_space))

theorem done_fieldTable (h : Prod .MODULE_FIELD_TABLE cs) : Done o ss (fmtFieldTable o ss) := by
  prods h
  unfold fmtFieldTable
  picks
  rcases h with h | h
  · exact at_close hlb hk (at_part hlb hk (at_tok hlb hk (at_no_part (at_part hlb hk (at_part hlb hk (at_tok hlb hk (at_kw hlb hk (at_lparen hlb hk (at_init (hk.mt h)))) isSep_space) isSep_space) isSep_space)) isSep_space) isSep_space)
  · exact at_close hlb hk (at_no_part (at_no_tok (at_part hlb hk (at_part hlb hk (at_part hlb hk (at_tok hlb hk (at_kw hlb hk (at_lparen hlb hk (at_init (hk.mt h)))) isSep_space) isSep_space) isSep_space) isSep_space)))

theorem done_fieldFunc (h : Prod .MODULE_FIELD_FUNC cs) (hl : ¬ Lossy .MODULE_FIELD_FUNC cs) :
    Done o ss (fmtFieldFunc o ss) := by
  prods h
  have h := func_cases (is := [_, _, _]) h hl
  unfold fmtFieldFunc
  picks
  exact at_close hlb hk (at_nested hlb hk (at_firstParts hlb hk (at_typeUse hlb hk (at_parts hlb hk (at_part hlb hk (at_tok hlb hk (at_kw hlb hk (at_lparen hlb hk (at_init (hk.mt h)))) isSep_space) isSep_space)
    isSep_space)) (isSep_nest (isSep_softLine hlb))))

theorem done_typeUse (h : Prod .TYPE_USE cs)
    (hu : (∀ t, Green.tok .L_PAREN t ∉ cs) → ∀ a s s' b, sig ss = a ++ s :: s' :: b → s.g.isNodeOf .PARAM = true →
      s'.g.isNodeOf .RESULT = true → cmts o s.after = []) : Done o ss (fmtTypeUse o ss) := by
  prods h
  unfold fmtTypeUse
  picks
  have hn : IsSep o [.nest o.indent .softLine] := isSep_nest (isSep_softLine hlb)
  rcases h with h | h | h
  · obtain ⟨s, hs⟩ := sel_some (q := .tok .L_PAREN) (hk.mt h) rfl
    rw [hs]
    exact At.done hk (at_useParts hlb hk (at_useParts hlb hk (at_rparen hlb hk (at_part hlb hk (at_kw hlb hk (at_lparen hlb hk (at_init (hk.mt h)))) isSep_space)) hn (.inl rfl)) isSep_space (.inl rfl))
  · have hno : ∀ t, Green.tok .L_PAREN t ∉ cs := by
      intro t ht
      have h1 := Pick.count_length (q := .tok .L_PAREN) (match_wider (js := [manyN .PARAM, manyN .RESULT]) h rfl) 0 rfl
      have : Green.tok .L_PAREN t ∈ (signif cs).filter (Pick.tok .L_PAREN).on :=
        List.mem_filter.mpr ⟨List.mem_filter.mpr ⟨ht, rfl⟩, rfl⟩
      rw [List.length_eq_zero_iff.mp h1] at this
      cases this
    have h := match_wider (js := [manyN .PARAM, manyN .RESULT]) h rfl
    refine At.done hk (at_useParts hlb hk (at_useParts hlb hk (at_no_rparen (at_no_part (at_no_kw (at_no_lparen
      (at_init (hk.mt h)))))) hn (.inr fun done s rem _ hm _ => ?_)) isSep_space (.inr fun done s rem he hm hh => ?_))
    · rw [done_nil hm]; rfl
    · rcases List.eq_nil_or_concat done with rfl | ⟨a, x, rfl⟩
      · rfl
      · rw [List.concat_eq_append] at *
        rw [tailCmts_snoc]
        refine hu hno a x s rem (by simpa using he) ?_ ?_
        · obtain ⟨l, r, h5, h6, h7⟩ := match_many_inv hm
          have hr : r = [] := by cases h7; rfl
          obtain ⟨t, h1, h2⟩ := h6 x.g (by
            have : x.g ∈ l ++ r := by rw [← h5]; simp
            simpa [hr] using this)
          simp only [List.mem_singleton] at h1
          subst h1
          exact term_node h2
        · obtain ⟨t, h1, h2⟩ := hh
          simp only [List.mem_singleton] at h1
          subst h1
          exact term_node h2
  · have h := match_wider (js := [manyN .RESULT]) h rfl
    refine At.done hk (at_useParts hlb hk (at_no_useParts (at_no_rparen (at_no_part (at_no_kw (at_no_lparen
      (at_init (hk.mt h))))))) isSep_space (.inr fun done s rem _ hm _ => ?_))
    rw [done_nil hm]; rfl

theorem done_elemList (h : Prod .ELEM_LIST cs) : Done o ss (fmtElemList o ss) := by
  prods h
  unfold fmtElemList
  picks
  rcases h with h | h | h
  · obtain ⟨s, hs⟩ := sel_some (q := .tok .KEYWORD) (hk.mt h) rfl
    have h1 := at_indexes hlb hk (o := o) (k := .INDEX) (at_kw hlb hk (o := o) (at_init (hk.mt h))) (by decide)
      (by unfold Pr.kw Pr.word; rw [tokSpot_sel, hs]; simp)
    rw [sel_none (q := .tok .REF_TYPE) (n := 0) h1 (by decide)]
    exact At.doneT (at_no_owns h1)
  · have h := match_wider (js := [manyN .INDEX]) h rfl
    have h0 : (Pr.init.kw o ss t!"func") = Pr.init := by
      unfold Pr.kw Pr.word
      rw [tokSpot_sel, sel_none (at_init (o := o) (hk.mt h)) (by decide)]
    have h1 := at_indexes_first hlb hk (o := o) (k := .INDEX) (at_init (hk.mt h))
    rw [h0, sel_none (q := .tok .REF_TYPE) (n := 0) h1 (by decide)]
    exact At.doneT (at_no_owns h1)
  · rw [refType_first]
    exact At.doneT (at_owns hlb hk (at_first hlb hk (at_no_indexes (at_no_kw (at_init (hk.mt h))))))

theorem done_module {before : List Green} (hn : NoDirective o before ss) (h : Prod .MODULE cs) :
    Done o ss (fmtModule o before ss) := by
  prods h
  unfold fmtModule
  picks
  rw [fields_sels]
  simp only [fields_parts hn _ (fun s hs => (List.mem_filter.mp hs).1 : ∀ s ∈ sels pickField ss, s ∈ ss)]
  have h1 := at_parts hlb hk (o := o) (q := pickField) (seps := [.hardLine]) (at_tok hlb hk (o := o) (k := .IDENT) (n := 0) (at_kw hlb hk (o := o)
    (at_lparen hlb hk (o := o) (at_init (hk.mt h)))) isSep_space) (isSep_hardLine hlb)
  have e := parts_prefix (o := o) (seps := [.hardLine]) (((Pr.init.lparen o ss).kw o ss t!"module").tok? o .space (sel (.tok .IDENT) 0 ss)).docs
    (sels pickField ss) [] (((Pr.init.lparen o ss).kw o ss t!"module").tok? o .space (sel (.tok .IDENT) 0 ss)).triv
  rw [List.append_nil] at e
  rw [e] at h1
  exact at_close hlb hk (at_nest hlb h1)

/-- The only child, where there is no white space. -/
theorem whole_only {ts : List Term} (h : Match [.one ts] (signif cs)) (hw : signif cs = cs) :
    ∃ s, ss = [s] ∧ cs = [s.g] ∧ isBlank s.g = false ∧ SpotOk o s ∧ ∃ t ∈ ts, t.is s.g := by
  obtain ⟨s, h1, h2, h3, h4⟩ := only (hk.mt h)
  have hss : sig ss = ss := by
    unfold sig
    refine List.filter_eq_self.mpr fun s hs => ?_
    have : s.g ∈ signif cs := by rw [hw, ← hk.gs]; exact List.mem_map_of_mem hs
    exact (List.mem_filter.mp this).2
  have hs : ss = [s] := by rw [← hss, h1]
  exact ⟨s, hs, by rw [← hk.gs, hs]; rfl, h3, hk.ok s h2, h4⟩

theorem done_text {ts : List Term} (hp : Match [.one ts] (signif cs)) (hw : signif cs = cs)
    (ht : (ts.all fun t => match t with | .tok _ => true | _ => false) = true) : Done o ss (fmtText ss) := by
  obtain ⟨s, rfl, h1, h2, h3, t, h4, h5⟩ := whole_only hlb hk hp hw
  have := List.all_eq_true.mp ht t h4
  cases t with
  | node _ => cases this
  | word _ => cases this
  | tok k =>
    cases hg : s.g with
    | node _ _ => rw [hg] at h5; exact h5.elim
    | tok k' t =>
      have hd : fmtText [s] = s.d := by
        rw [h3.text _ _ hg]; simp [fmtText, hg, Green.textL, Green.text]
      rw [hd]
      exact done_only hk (by simp [sig, h2]) (.head _) h2

theorem done_operand (h : Prod .OPERAND cs) (hw : signif cs = cs) : Done o ss (fmtOperand ss) := by
  prods h
  obtain ⟨s, rfl, h1, h2, h3, t, h4, h5⟩ := whole_only hlb hk h hw
  have hd : Done o [s] s.d := done_only hk (by simp [sig, h2]) (.head _) h2
  unfold fmtOperand
  cases hg : s.g with
  | tok k t =>
    have e1 : instrSpots [s] = [] := by simp [instrSpots, hg, Green.isInstr, Green.isNodeOf]
    have e2 : nodeSpot .TYPE_USE [s] = none := by simp [nodeSpot, hg, Green.isNodeOf]
    rw [e1, e2]
    simp only [List.head?_nil, List.head?_cons, Option.bind_some, hg, Green.firstTok]
    rw [← h3.text _ _ hg]; exact hd
  | node k c =>
    rw [hg] at h5
    simp only [instrTerms, List.cons_append, List.nil_append, List.mem_cons, List.not_mem_nil, or_false] at h4
    rcases h4 with rfl | rfl | rfl | rfl | rfl | rfl | rfl | rfl | rfl | rfl | rfl
    all_goals first
      | exact h5.elim
      | (cases h5
         first
         | (have e1 : instrSpots [s] = [s] := by simp [instrSpots, hg, Green.isInstr, Green.isNodeOf]
            rw [e1]; exact hd)
         | (have e1 : instrSpots [s] = [] := by simp [instrSpots, hg, Green.isInstr, Green.isNodeOf]
            have e2 : nodeSpot .TYPE_USE [s] = some s := by simp [nodeSpot, hg, Green.isNodeOf]
            rw [e1, e2]; exact hd))

end
end Verif.Txt
