import Verif.Lemmas.FormatMarkKinds
import Verif.Lemmas.FormatRoot
import Verif.Spec.Comments
/-!
Helper lemmas for C59: the document of a tree has the texts of the tokens and comments of the tree, and what is printed
shows them.
-/
namespace Verif.Txt
open Spec

variable {o : FmtOpts} {lb : Text}

/-! ### The comments between the children -/

theorem fmtTrivia_of {g : Green} (hb : isBlank g = true) : ∃ k t, g = .tok k t ∧ fmtTrivia g = some (k, t) := by
  cases g with
  | node _ _ => cases hb
  | tok k t => refine ⟨k, t, rfl, ?_⟩; cases k <;> first | rfl | cases hb

theorem fmtTrivia_none {g : Green} (hb : isBlank g = false) (he : ∀ t, g ≠ .tok .ERROR t) : fmtTrivia g = none := by
  cases g with
  | node _ _ => rfl
  | tok k t => cases k <;> first | rfl | (cases hb; done) | exact absurd rfl (he t)

theorem cmts_blank {g : Green} {gs : List Green} (hb : isBlank g = true) : cmts o (g :: gs) = marks o g ++ cmts o gs := by
  obtain ⟨k, t, rfl, h⟩ := fmtTrivia_of hb
  unfold cmts
  rw [triviaAfter, h]
  simp [marks, tokDocs, hb]

theorem cmts_solid {g : Green} {gs : List Green} (hb : isBlank g = false) (he : ∀ t, g ≠ .tok .ERROR t) :
    cmts o (g :: gs) = [] := by
  unfold cmts
  rw [triviaAfter, fmtTrivia_none hb he]
  rfl

theorem marks_blank {g : Green} (hb : isBlank g = true) (hc : ¬ IsComment g) : marks o g = [] := by
  obtain ⟨k, t, rfl, h⟩ := fmtTrivia_of hb
  have : k = .WHITESPACE := by
    simp only [IsComment, not_or] at hc
    cases k <;> first | rfl | (cases hb; done) | exact absurd rfl hc.1 | exact absurd rfl hc.2
  subst this
  simp only [marks, tokDocs, hb, if_true]
  exact triviaDocs_white rfl

theorem cmts_leading : ∀ {gs : List Green}, (∀ t, Green.tok .ERROR t ∉ gs) → cmts o gs ≠ [] → LeadingComment gs
  | [], _, h => absurd rfl h
  | g :: gs, he, h => by
    cases hb : isBlank g with
    | false => exact absurd (cmts_solid hb fun t ht => he t (ht ▸ .head _)) h
    | true =>
      by_cases hc : IsComment g
      · exact ⟨[], g, gs, rfl, by simp, hc⟩
      · rw [cmts_blank hb, marks_blank hb hc] at h
        obtain ⟨a, c, b, rfl, h1, h2⟩ := cmts_leading (gs := gs) (fun t ht => he t (.tail _ ht)) h
        refine ⟨g :: a, c, b, rfl, ?_, h2⟩
        intro x hx
        rcases List.mem_cons.mp hx with rfl | hx
        · exact hb
        · exact h1 x hx

theorem cmts_inner {k : Kind} {c z : List Green} : ∀ {y : List Green}, (∀ g ∈ y, isBlank g = true) →
    cmts o (y ++ .node k c :: z) ≠ [] → ∃ g ∈ y, IsComment g
  | [], _, h => absurd (cmts_solid rfl (by simp)) h
  | g :: y, hy, h => by
    by_cases hc : IsComment g
    · exact ⟨g, .head _, hc⟩
    · rw [List.cons_append, cmts_blank (hy g (.head _)), marks_blank (hy g (.head _)) hc] at h
      obtain ⟨g', h1, h2⟩ := cmts_inner (y := y) (fun g hg => hy g (.tail _ hg)) h
      exact ⟨g', .tail _ h1, h2⟩

theorem marksL_append (a b : List Green) : marksL o (a ++ b) = marksL o a ++ marksL o b := by
  induction a with
  | nil => rfl
  | cons d a ih => simp [marksL, ih]

/-- The texts of elements: those of the comments before them all, and those of each with the comments after it. -/
theorem marksL_kids : ∀ (cs before : List Green), (∀ t, Green.tok .ERROR t ∉ cs) →
    marksL o cs = cmts o cs ++ (sig (fmtKids o before cs)).flatMap (full o)
  | [], _, _ => rfl
  | g :: cs, before, he => by
    have ih := marksL_kids cs (g :: before) fun t ht => he t (.tail _ ht)
    cases hb : isBlank g with
    | true =>
      rw [cmts_blank hb, marksL, ih, fmtKids]
      simp [sig, List.filter_cons, hb]
    | false =>
      rw [cmts_solid hb fun t ht => he t (ht ▸ .head _), marksL, ih, fmtKids]
      simp [sig, List.filter_cons, hb, full]

theorem spots_after : ∀ (cs before : List Green) {x y : List Spot} {s : Spot}, fmtKids o before cs = x ++ s :: y →
    s.after = y.map (·.g)
  | [], _, x, y, s, h => by cases x <;> simp [fmtKids] at h
  | g :: cs, before, x, y, s, h => by
    rw [fmtKids] at h
    cases x with
    | nil =>
      simp only [List.nil_append, List.cons.injEq] at h
      obtain ⟨rfl, rfl⟩ := h
      exact (fmtKids_map _ _).symm
    | cons a x =>
      simp only [List.cons_append, List.cons.injEq] at h
      exact spots_after cs (g :: before) h.2

/-- Two children next to each other but for white space and comments. -/
theorem sig_next : ∀ {ss : List Spot} {a b : List Spot} {s : Spot}, sig ss = a ++ s :: b →
    ∃ x y, ss = x ++ s :: y ∧ sig y = b
  | [], a, b, s, h => by cases a <;> simp [sig] at h
  | z :: ss, a, b, s, h => by
    cases hb : isBlank z.g with
    | true =>
      have : sig (z :: ss) = sig ss := by simp [sig, List.filter_cons, hb]
      rw [this] at h
      obtain ⟨x, y, rfl, h2⟩ := sig_next h
      exact ⟨z :: x, y, rfl, h2⟩
    | false =>
      have : sig (z :: ss) = z :: sig ss := by simp [sig, List.filter_cons, hb]
      rw [this] at h
      cases a with
      | nil =>
        simp only [List.nil_append, List.cons.injEq] at h
        obtain ⟨rfl, rfl⟩ := h
        exact ⟨[], ss, rfl, rfl⟩
      | cons w a =>
        simp only [List.cons_append, List.cons.injEq] at h
        obtain ⟨x, y, rfl, h2⟩ := sig_next h.2
        exact ⟨z :: x, y, rfl, h2⟩

theorem sig_first : ∀ {ss : List Spot} {b : List Spot} {s : Spot}, sig ss = s :: b →
    ∃ x y, ss = x ++ s :: y ∧ (∀ z ∈ x, isBlank z.g = true) ∧ sig y = b
  | [], b, s, h => by simp [sig] at h
  | z :: ss, b, s, h => by
    cases hb : isBlank z.g with
    | true =>
      have : sig (z :: ss) = sig ss := by simp [sig, List.filter_cons, hb]
      rw [this] at h
      obtain ⟨x, y, rfl, h2, h3⟩ := sig_first h
      refine ⟨z :: x, y, rfl, ?_, h3⟩
      intro w hw
      rcases List.mem_cons.mp hw with rfl | hw
      · exact hb
      · exact h2 w hw
    | false =>
      have : sig (z :: ss) = z :: sig ss := by simp [sig, List.filter_cons, hb]
      rw [this] at h
      simp only [List.cons.injEq] at h
      obtain ⟨rfl, rfl⟩ := h
      exact ⟨[], ss, rfl, by simp, rfl⟩

theorem kids_tail {cs : List Green} (h : EndsSolid cs) (before : List Green) : tailCmts o (sig (fmtKids o before cs)) = [] := by
  rcases List.eq_nil_or_concat (sig (fmtKids o before cs)) with h0 | ⟨a, s, h0⟩
  · rw [h0]; rfl
  · rw [List.concat_eq_append] at h0
    rw [h0, tailCmts_snoc]
    obtain ⟨x, y, h1, h2⟩ := sig_next h0
    rw [spots_after _ _ h1]
    rcases List.eq_nil_or_concat y with rfl | ⟨y', z, rfl⟩
    · rfl
    · exfalso
      rw [List.concat_eq_append] at h1 h2
      have hc := fmtKids_map (o := o) before cs
      rw [h1] at hc
      have hz := h (x.map (·.g) ++ s.g :: y'.map (·.g)) z.g (by rw [← hc]; simp)
      have : z ∈ sig (y' ++ [z]) := List.mem_filter.mpr ⟨by simp, by simp [hz]⟩
      rw [h2] at this
      cases this

theorem kids_inner {cs before : List Green} (h : ¬ InnerComment cs) {a b : List Spot} {s s' : Spot}
    (hs : sig (fmtKids o before cs) = a ++ s :: s' :: b) (hp : s.g.isNodeOf .PARAM = true) (hr : s'.g.isNodeOf .RESULT = true) :
    cmts o s.after = [] := by
  obtain ⟨x, y, h1, h2⟩ := sig_next hs
  obtain ⟨u, v, rfl, h3, h4⟩ := sig_first h2
  rw [spots_after _ _ h1]
  have hc := fmtKids_map (o := o) before cs
  rw [h1] at hc
  cases hg : s.g with
  | tok _ _ => rw [hg] at hp; cases hp
  | node k p =>
    cases hg' : s'.g with
    | tok _ _ => rw [hg'] at hr; cases hr
    | node k' r =>
      rw [hg] at hp
      rw [hg'] at hr
      simp only [Green.isNodeOf, beq_iff_eq] at hp hr
      subst hp hr
      have hu : ∀ g ∈ u.map (·.g), isBlank g = true := by
        intro g hg
        obtain ⟨z, hz, rfl⟩ := List.mem_map.mp hg
        exact h3 z hz
      cases hcm : cmts o ((u ++ s' :: v).map (·.g)) with
      | nil => rfl
      | cons m ms =>
        exfalso
        rw [List.map_append, List.map_cons, hg'] at hcm
        obtain ⟨g, h5, h6⟩ := cmts_inner hu (by rw [hcm]; simp)
        obtain ⟨w, w', h7⟩ := List.append_of_mem h5
        refine h ⟨x.map (·.g), p, w, g, w', r, v.map (·.g), ?_, ?_, h6⟩
        · rw [← hc]
          simp only [List.map_append, List.map_cons, hg, hg', h7]
          simp
        · intro g' hg'
          refine hu g' ?_
          rw [h7]
          rcases List.mem_append.mp hg' with h | h <;> simp [h]

/-! ### All nodes -/

theorem fit_error {k : Kind} {cs : List Green} (hf : Fit o (.node k cs)) (t : Text) : Green.tok .ERROR t ∉ cs := fun hm =>
  (hf.toks (.ERROR, t) (toks_child hm (by simp [Green.toks]))).2.1 rfl

/-- The document of a node has the texts of the children. -/
theorem node_texts {k : Kind} {cs before : List Green} {ss : List Spot} (hk : Kids o cs ss)
    (hn : NoDirective o before ss) (hl : ¬ Lossy k cs) (hp : Prod k cs) (hno : NodeOk k cs) (hr : k ≠ .ROOT)
    (hu : k = .TYPE_USE → (∀ t, Green.tok .L_PAREN t ∉ cs) → ∀ a s s' b, sig ss = a ++ s :: s' :: b →
      s.g.isNodeOf .PARAM = true → s'.g.isNodeOf .RESULT = true → cmts o s.after = []) :
    Done o ss (fmtNode o before k ss) := by
  cases k
  case ROOT => exact absurd rfl hr
  case MODULE_NAME =>
    prods hp
    exact done_text trivial hk hp (signif_whole hno (by decide)) (by decide)
  case NAME =>
    prods hp
    exact done_text trivial hk hp (signif_whole hno (by decide)) (by decide)
  case VAL_TYPE =>
    prods hp
    exact done_text trivial hk hp (signif_whole hno (by decide)) (by decide)
  case INDEX =>
    prods hp
    exact done_text trivial hk hp (signif_whole hno (by decide)) (by decide)
  case FUNC_TYPE => exact done_funcType trivial hk hp
  case PARAM => exact done_param trivial hk hp
  case RESULT => exact done_result trivial hk hp
  case TABLE_TYPE => exact done_tableType trivial hk hp
  case MEMORY_TYPE => exact done_memoryType trivial hk hp
  case GLOBAL_TYPE => exact done_globalType trivial hk hp
  case BLOCK_TYPE => exact done_blockType trivial hk hp
  case PLAIN_INSTR => exact done_plainInstr trivial hk hp
  case BLOCK_BLOCK => exact done_blockLike trivial hk (.inl ⟨rfl, rfl⟩) hp hl
  case BLOCK_LOOP => exact done_blockLike trivial hk (.inr ⟨rfl, rfl⟩) hp hl
  case BLOCK_IF => exact done_blockIf trivial hk hp hl
  case BLOCK_IF_THEN => exact done_then trivial hk hp
  case BLOCK_IF_ELSE => exact done_else trivial hk hp
  case OPERAND => exact done_operand trivial hk hp (signif_whole hno (by decide))
  case TYPE_USE => exact done_typeUse trivial hk hp (hu rfl)
  case LIMITS => exact done_limits trivial hk hp (fun t ht => hl ⟨t, ht⟩)
  case IMPORT => exact done_import trivial hk hp
  case EXPORT => exact done_export trivial hk hp
  case IMPORT_DESC_TYPE_USE => exact done_namedTypeUse trivial hk hp
  case IMPORT_DESC_TABLE_TYPE => exact done_namedTableType trivial hk hp
  case IMPORT_DESC_MEMORY_TYPE => exact done_namedMemoryType trivial hk hp
  case IMPORT_DESC_GLOBAL_TYPE => exact done_namedGlobalType trivial hk hp
  case EXPORT_DESC_FUNC => exact done_exportDescFunc trivial hk hp
  case EXPORT_DESC_TABLE => exact done_exportDescTable trivial hk hp
  case EXPORT_DESC_MEMORY => exact done_exportDescMemory trivial hk hp
  case EXPORT_DESC_GLOBAL => exact done_exportDescGlobal trivial hk hp
  case LOCAL => exact done_local trivial hk hp
  case MEM_USE => exact done_useMemUse trivial hk hp
  case OFFSET => exact done_offset trivial hk hp
  case ELEM => exact done_elem trivial hk hp
  case ELEM_LIST => exact done_elemList trivial hk hp
  case ELEM_EXPR => exact done_elemExpr trivial hk hp
  case TABLE_USE => exact done_useTableUse trivial hk hp
  case DATA => exact done_data trivial hk hp
  case MODULE => exact done_module trivial hk hn hp
  case MODULE_FIELD_DATA => exact done_fieldData trivial hk hp
  case MODULE_FIELD_ELEM => exact done_fieldElem trivial hk hp
  case MODULE_FIELD_EXPORT => exact done_fieldExport trivial hk hp
  case MODULE_FIELD_FUNC => exact done_fieldFunc trivial hk hp hl
  case MODULE_FIELD_GLOBAL => exact done_fieldGlobal trivial hk hp
  case MODULE_FIELD_IMPORT => exact done_fieldImport trivial hk hp
  case MODULE_FIELD_MEMORY => exact done_fieldMemory trivial hk hp
  case MODULE_FIELD_START => exact done_useStart trivial hk hp
  case MODULE_FIELD_TABLE => exact done_fieldTable trivial hk hp
  case MODULE_FIELD_TYPE => exact done_namedFieldType trivial hk hp
  all_goals (obtain ⟨_, h, _⟩ := hp; simp [productions] at h)

theorem lead_drops {k : Kind} {cs : List Green} (hd : Derived (.node k cs)) (h : LeadingComment cs) : DropsComment k cs := by
  rcases hd.2.1.2.2 with h1 | ⟨h1, h2⟩
  · exfalso
    obtain ⟨a, c, b, rfl, h3, h4⟩ := h
    cases a with
    | nil =>
      have := h1 c b rfl
      cases c with
      | tok k t => rcases h4 with rfl | rfl <;> cases this
      | node _ _ => exact h4
    | cons x a => exact absurd (h3 x (.head _)) (by rw [h1 x _ rfl]; decide)
  · exact ⟨h2, .inl ⟨h1.symm, h⟩⟩

mutual
theorem doc_texts : ∀ (g : Green) (before : List Green), Fit o g → KeepsComments g → g.kind ≠ .ROOT → NoDir o before →
    isBlank g = false → (fmtDoc o before g).texts = marks o g
  | .tok k t, before, hf, _, _, _, hb => by
    rw [marks, tokDocs, hb]
    simp [fmtDoc, textsL]
  | .node k cs, before, hf, hkp, hr, hd, _ => by
    have hspots := Verif.kids_ok (lb := ['\n']) (.inl rfl) cs []
      (fun g hg => ⟨hf.child hg, fun he => allowed_root (he ▸ hf.shaped.1.1 g hg)⟩)
      hf.derived.2.1.1 (by intro t ht; cases ht)
    have hno : ∀ t, Green.tok .ERROR t ∉ cs := fit_error hf
    have hdrop : ¬ DropsComment k cs := hkp (k, cs) (by simp [Green.nodes])
    have hk : Kids o cs (fmtKids o [] cs) := ⟨fmtKids_map [] cs, kids_texts cs [] (fun g hg => ⟨hf.child hg,
      fun kc hkc => hkp kc (nodes_child hg hkc), fun he => allowed_root (he ▸ hf.shaped.1.1 g hg)⟩) (by intro t ht; cases ht),
      kids_tail hf.derived.2.1.2.1 []⟩
    have hn : NoDirective o before (fmtKids o [] cs) := fun s hs => ignore_false (hspots s hs).2 hd
    have hl : ¬ Lossy k cs := hf.nodes (k, cs) (by simp [Green.nodes])
    have hdone : Done o (fmtKids o [] cs) (fmtNode o before k (fmtKids o [] cs)) :=
      node_texts hk hn hl hf.derived.1 hf.shaped.1 hr (by
        rintro rfl hlp a s s' b hs hp hq
        exact kids_inner (fun hi => hdrop ⟨hlp, .inr ⟨rfl, hi⟩⟩) hs hp hq)
    have hlead : cmts o cs = [] := by
      cases hc : cmts o cs with
      | nil => rfl
      | cons m ms => exact absurd (lead_drops hf.derived (cmts_leading hno (by rw [hc]; simp))) hdrop
    rw [marks, marksL_kids cs [] hno, hlead]
    exact hdone

theorem kids_texts : ∀ (cs : List Green) (before : List Green),
    (∀ g ∈ cs, Fit o g ∧ KeepsComments g ∧ g.kind ≠ .ROOT) → NoDir o before → ∀ s ∈ fmtKids o before cs, SpotOk o s
  | [], _, _, _ => by intro s hs; simp [fmtKids] at hs
  | g :: cs, before, hf, hd => by
    intro s hs
    simp only [fmtKids, List.mem_cons] at hs
    rcases hs with rfl | hs
    · have hg := hf g (.head _)
      have := doc_texts g before hg.1 hg.2.1 hg.2.2 hd
      refine ⟨?_, ?_, this⟩
      · intro k t he
        simp only at he
        subst he
        exact (hg.1.toks (k, t) (by simp [Green.toks])).1
      · intro k t he
        simp only at he
        subst he
        rfl
    · refine kids_texts cs (g :: before) (fun g hg => hf g (.tail _ hg)) ?_ s hs
      intro t ht
      rcases List.mem_cons.mp ht with rfl | ht
      · have := ((hf _ (.head _)).1.toks (.LINE_COMMENT, t) (by simp [Green.toks])).2.2.2 rfl
        cases h : isDirective o t with
        | false => rfl
        | true => exact absurd (isDirective_names h) this
      · exact hd t ht
end

end Verif.Txt
