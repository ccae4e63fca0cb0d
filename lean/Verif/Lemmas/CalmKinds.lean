import Verif.Lemmas.CalmRun
/-!
Helper lemmas for C64: every kind of node, continued from `CalmRun`.
-/
namespace Verif.Calm
open Verif Spec

variable {o : FmtOpts} {ss : List Spot} {p : Pr} {k : Kind} {w : Text} {sep : Doc} {seps : List Doc} {b : Bool} {cs : List Green}

/-- A kind of which the nodes are always printed with a text first. -/
def firmKind (k : Kind) : Bool := !(k == .OFFSET || k == .ELEM_EXPR || k == .BLOCK_IF_THEN)

theorem firm_of {g : Green} (hk : firmKind k = true) (h : g.isNodeOf k = true) : isBlank g = false ∧ firmNode g = true := by
  cases g with
  | tok _ _ => cases h
  | node k' c =>
    simp only [Green.isNodeOf, beq_iff_eq] at h
    subst h
    refine ⟨rfl, ?_⟩
    simp only [firmKind, Bool.not_eq_true', Bool.or_eq_false_iff] at hk
    simp [firmNode, Green.isNodeOf, hk]

theorem firm_node (hk : firmKind k = true) : ∀ s, nodeSpot k ss = some s → s ∈ ss ∧ isBlank s.g = false ∧ firmNode s.g = true :=
  fun s h => ⟨from_node s h, firm_of hk (List.find?_some (p := fun s : Spot => s.g.isNodeOf k) h)⟩

theorem firm_nodes (hk : firmKind k = true) : ∀ s ∈ nodeSpots k ss, s ∈ ss ∧ isBlank s.g = false ∧ firmNode s.g = true :=
  fun s h => ⟨nodes_mem s h, firm_of hk (List.mem_filter.mp h).2⟩

theorem firm_instr {g : Green} (h : g.isInstr = true) : isBlank g = false ∧ firmNode g = true := by
  simp only [Green.isInstr, Bool.or_eq_true] at h
  rcases h with ((h | h) | h) | h <;> exact firm_of rfl h

theorem firm_instrs : ∀ s ∈ instrSpots ss, s ∈ ss ∧ isBlank s.g = false ∧ firmNode s.g = true :=
  fun s h => ⟨instrs_mem s h, firm_instr (List.mem_filter.mp h).2⟩

theorem firm_export : ∀ s, (ss.find? fun s => s.g.isExportDesc) = some s → s ∈ ss ∧ isBlank s.g = false ∧ firmNode s.g = true :=
  fun s h => ⟨List.mem_of_find?_eq_some h, by
    have := List.find?_some h
    simp only [Green.isExportDesc, Bool.or_eq_true] at this
    rcases this with ((h | h) | h) | h <;> exact firm_of rfl h⟩

theorem firm_import : ∀ s, (ss.find? fun s => s.g.isImportDesc) = some s → s ∈ ss ∧ isBlank s.g = false ∧ firmNode s.g = true :=
  fun s h => ⟨List.mem_of_find?_eq_some h, by
    have := List.find?_some h
    simp only [Green.isImportDesc, Bool.or_eq_true] at this
    rcases this with ((h | h) | h) | h <;> exact firm_of rfl h⟩

theorem is_tok : ∀ s, tokSpot k ss = some s → s ∈ ss ∧ s.g.isTokOf k = true := fun s h => ⟨from_tok s h, List.find?_some (p := fun s : Spot => s.g.isTokOf k) h⟩
theorem is_get {n : Nat} : ∀ s, (tokSpots k ss)[n]? = some s → s ∈ ss ∧ s.g.isTokOf k = true := fun _ h =>
  List.mem_filter.mp (List.mem_of_getElem? h)

theorem begins {ts : List Term} {is : List Item} (h : Match (.one ts :: is) (signif cs)) : ∃ t ∈ ts, ∃ g ∈ cs, t.is g := by
  generalize hl : signif cs = l at h
  cases h with
  | one h1 h2 _ => exact ⟨_, h1, _, (List.mem_filter.mp (hl ▸ .head _ : _ ∈ signif cs)).1, h2⟩

section
variable (hs : ss.map (·.g) = cs)
include hs

theorem spot_of {g : Green} (hg : g ∈ cs) : ∃ s ∈ ss, s.g = g := by
  subst hs; exact List.mem_map.mp hg

theorem tok_some {g : Green} (hg : g ∈ cs) (h : g.isTokOf k = true) : (tokSpot k ss).isSome = true := by
  obtain ⟨s, h1, rfl⟩ := spot_of hs hg
  exact List.find?_isSome.mpr ⟨s, h1, h⟩

theorem node_some {g : Green} (hg : g ∈ cs) (h : g.isNodeOf k = true) : (nodeSpot k ss).isSome = true := by
  obtain ⟨s, h1, rfl⟩ := spot_of hs hg
  exact List.find?_isSome.mpr ⟨s, h1, h⟩

/-- The productions of the kind begin with an opening parenthesis or a keyword. -/
def opens (k : Kind) : Bool :=
  (productions k).all fun p => match p with
    | .one [.tok .L_PAREN] :: _ => true
    | .one [.word _] :: _ => true
    | _ => false

theorem opened (hp : Prod k cs) (ho : opens k = true) :
    (tokSpot .L_PAREN ss).isSome = true ∨ (tokSpot .KEYWORD ss).isSome = true := by
  obtain ⟨q, h1, h2⟩ := hp
  have := List.all_eq_true.mp ho q h1
  split at this
  · obtain ⟨t, ht, g, hg, hi⟩ := begins h2
    cases List.mem_singleton.mp ht
    cases g with
    | node _ _ => exact hi.elim
    | tok k' t => exact .inl (tok_some hs hg (by simpa [Green.isTokOf, Term.is] using hi))
  · obtain ⟨t, ht, g, hg, hi⟩ := begins h2
    cases List.mem_singleton.mp ht
    cases g with
    | node _ _ => exact hi.elim
    | tok k' t => exact .inr (tok_some hs hg (by simpa [Green.isTokOf] using hi.1))
  · cases this

end

section
variable (hc : ∀ s ∈ ss, SpotC o s)
include hc

theorem firm_named {kn : Kind} (hk : firmKind kn = true) (h : Good true ((Pr.init.lparen o ss).kw o ss w)) :
    Firm (fmtNamed o w kn ss) :=
  (good_part hc (good_tok (k := .IDENT) hc h rfl is_tok sep_space) (firm_node hk) sep_space).close

theorem firm_blockLike (h : Good true ((Pr.init.lparen o ss).kw o ss w)) : Firm (fmtBlockLike o w ss) := by
  unfold fmtBlockLike
  exact (good_tok (k := .IDENT) hc (good_word hc (good_rparen hc (good_nested hc (good_part hc
    (good_tok (k := .IDENT) hc h rfl is_tok sep_space) (firm_node rfl) sep_space) firm_instrs)) from_word rfl sep_hard)
    rfl is_get sep_space).firm

theorem firm_blockIf (h : Good true ((Pr.init.lparen o ss).kw o ss t!"if")) : Firm (fmtBlockIf o ss) := by
  unfold fmtBlockIf
  simp only
  generalize hp : ((((Pr.init.lparen o ss).kw o ss t!"if").tok? o .space (tokSpot .IDENT ss)).part? o [.space]
    (nodeSpot .BLOCK_TYPE ss)) = p
  have h1 : Good true p := hp ▸ good_part hc (good_tok (k := .IDENT) hc h rfl is_tok sep_space) (firm_node (k := .BLOCK_TYPE) rfl) sep_space
  generalize hq : ((fmtThen o (nodeSpot .BLOCK_IF_THEN ss) (Pr.parts o [.hardLine] (instrSpots ss) ⟨[], p.triv⟩)).part? o
    [.hardLine] (nodeSpot .BLOCK_IF_ELSE ss)) = q
  have h2 : Good false q := by
    rw [← hq]
    refine good_part hc (good_then hc (good_parts (p := ⟨[], p.triv⟩) hc ⟨h1.triv, rfl⟩ firm_instrs sep_hard) fun s hs => ?_) (firm_node (k := .BLOCK_IF_ELSE) rfl) sep_hard
    have hn : s.g.isNodeOf .BLOCK_IF_THEN = true := List.find?_some (p := fun s : Spot => s.g.isNodeOf .BLOCK_IF_THEN) hs
    refine ⟨from_node s hs, ?_, fun hl => ?_⟩
    · cases hg : s.g with
      | tok _ _ => rw [hg] at hn; cases hn
      | node _ _ => rfl
    · cases hg : s.g with
      | tok _ _ => rw [hg] at hn; cases hn
      | node k c =>
        rw [hg] at hn hl
        simp only [Green.isNodeOf, beq_iff_eq] at hn
        subst hn
        simp [firmNode, Green.isNodeOf, hl]
  have h3 : Good true ⟨p.docs ++ (match tokSpot .L_PAREN ss with
      | some _ => [.nest o.indent (.list q.docs)]
      | none => q.docs), q.triv⟩ := by
    refine ⟨h2.triv, ?_⟩
    rw [runL_append, h1.docs]
    split
    · simp only [runL, runD]; exact h2.docs
    · exact h2.docs
  exact (good_tok (k := .IDENT) hc (good_word hc (good_rparen hc h3) from_word rfl sep_hard) rfl is_get sep_space).firm

theorem good_branch (h : Good b ((Pr.init.lparen o ss).kw o ss w)) :
    Good b (((((Pr.init.lparen o ss).kw o ss w).tok? o .space (tokSpot .IDENT ss)).parts o [.hardLine] (instrSpots ss)).rparen? o ss) :=
  good_rparen hc (good_parts hc (good_tok (k := .IDENT) hc h rfl is_tok sep_space) firm_instrs sep_hard)

theorem good_expr (h : Good b ((Pr.init.lparen o ss).kw o ss w)) :
    Good b ((((Pr.init.lparen o ss).kw o ss w).nested o (instrSpots ss)).rparen? o ss) :=
  good_rparen hc (good_nested hc h firm_instrs)

/-- The own lines of offsets and items. -/
theorem own_side {s : Spot} (hs : s ∈ ss) (hn : s.g.isNodeOf k = true) (hk : k = .OFFSET ∨ k = .ELEM_EXPR) (h : Good b p) :
    Good b (p.own o s) := by
  refine good_own hc h hs ?_ fun hl => ?_
  · cases hg : s.g with
    | tok _ _ => rw [hg] at hn; cases hn
    | node _ _ => rfl
  · cases hg : s.g with
    | tok _ _ => rw [hg] at hn; cases hn
    | node k' c =>
      rw [hg] at hn hl
      simp only [Green.isNodeOf, beq_iff_eq] at hn
      subst hn
      rcases hk with rfl | rfl <;> simp [firmNode, Green.isNodeOf, hl]

theorem good_ownOffset (h : Good b p) : Good b (p.own? o (nodeSpot .OFFSET ss)) := by
  cases hx : nodeSpot .OFFSET ss with
  | none => exact h
  | some s => exact own_side hc (from_node s hx) (List.find?_some (p := fun s : Spot => s.g.isNodeOf .OFFSET) hx) (.inl rfl) h

theorem good_ownsExpr (h : Good b p) : Good b (p.owns o (nodeSpots .ELEM_EXPR ss)) :=
  good_fold h fun _ s hs hp => own_side hc (nodes_mem s hs) (List.mem_filter.mp hs).2 (.inr rfl) hp

theorem good_operands (h : Good b p) : Good b (fmtOperands o (nodeSpots .OPERAND ss) p) :=
  good_fold h fun _ s hs hp => good_part1 hc hp (nodes_mem s hs) (firm_nodes rfl s hs).2.1 (firm_nodes rfl s hs).2.2 (by
    split
    · exact sep_hard
    · exact sep_space)

theorem good_indexes (h : Good b p) : Good b (fmtIndexes o (nodeSpots .INDEX ss) p) :=
  good_fold h fun _ s hs hp => good_part1 hc hp (nodes_mem s hs) (firm_nodes rfl s hs).2.1 (firm_nodes rfl s hs).2.2 (by
    split
    · exact sep_nil
    · exact sep_space)

theorem good_firstParts (h : Good b p) {l : List Spot} (hx : ∀ s ∈ l, s ∈ ss ∧ isBlank s.g = false ∧ firmNode s.g = true) (hm : SepOk seps) :
    Good b (p.firstParts o seps l) := by
  cases l with
  | nil => exact h
  | cons s l =>
    have h1 := hx s (.head _)
    exact good_parts hc (good_part1 hc h h1.1 h1.2.1 h1.2.2 hm) (fun s hs => hx s (.tail _ hs)) sep_space

theorem good_useParts (h : Good b p) {lp : Bool} {l : List Spot} (hx : ∀ s ∈ l, s ∈ ss ∧ isBlank s.g = false ∧ firmNode s.g = true)
    (hm : SepOk [sep]) : Good b (fmtUseParts o sep lp l p) := by
  cases l with
  | nil => exact h
  | cons s l =>
    have h1 := hx s (.head _)
    refine good_parts hc ?_ (fun s hs => hx s (.tail _ hs)) sep_space
    unfold fmtUseFirst
    rw [h.triv]
    have hf := (hc s h1.1).firm h1.2.1 h1.2.2
    split
    · exact h.join hm hf (hc s h1.1).quiet.1
    · have e : (if lp = true then [] else []) = ([] : List Doc) := by split <;> rfl
      rw [e, List.append_nil]
      exact h.near hf.loose (hc s h1.1).quiet.1

/-- The first of the parameters or results, before which nothing has been printed. -/
theorem start_useParts {lp : Bool} {s : Spot} {l : List Spot}
    (hx : ∀ s' ∈ s :: l, s' ∈ ss ∧ isBlank s'.g = false ∧ firmNode s'.g = true) : Good true (fmtUseParts o sep lp (s :: l) Pr.init) := by
  have h1 := hx s (.head _)
  refine good_parts hc ?_ (fun s hs => hx s (.tail _ hs)) sep_space
  have hf := (hc s h1.1).firm h1.2.1 h1.2.2
  refine ⟨(hc s h1.1).quiet.1, ?_⟩
  simp only [fmtUseFirst, Pr.init]
  have : (if lp = true then [] else []) = ([] : List Doc) := by split <;> rfl
  simpa [this, runL, Firm] using hf

theorem good_funcTypeUse (h : Good b p) : Good b (fmtFuncTypeUse o (nodeSpot .TYPE_USE ss) p) := by
  cases hx : nodeSpot .TYPE_USE ss with
  | none => exact h
  | some s =>
    have h1 := firm_node (k := .TYPE_USE) rfl s hx
    refine good_part1 hc h h1.1 h1.2.1 h1.2.2 ?_
    split
    · exact sep_space
    · exact sep_nest

end

/-- The productions of the kind begin with an opening parenthesis. -/
def opensLp (k : Kind) : Bool :=
  (productions k).all fun p => match p with
    | .one [.tok .L_PAREN] :: _ => true
    | _ => false

theorem opened_lp (hs : ss.map (·.g) = cs) (hp : Prod k cs) (ho : opensLp k = true) : (tokSpot .L_PAREN ss).isSome = true := by
  obtain ⟨q, h1, h2⟩ := hp
  have := List.all_eq_true.mp ho q h1
  split at this
  · obtain ⟨t, ht, g, hg, hi⟩ := begins h2
    cases List.mem_singleton.mp ht
    cases g with
    | node _ _ => exact hi.elim
    | tok k' t => exact tok_some hs hg (by simpa [Green.isTokOf, Term.is] using hi)
  · cases this

theorem firm_exportDesc (hc : ∀ s ∈ ss, SpotC o s) (hl : (tokSpot .L_PAREN ss).isSome = true) : Firm (fmtExportDesc o ss) :=
  (good_part hc (good_name (k := .KEYWORD) hc (start_lparen hc hl) rfl is_tok) (firm_node (k := .INDEX) rfl) sep_space).close

/-! What may be printed first. -/

/-- Nothing has been printed, or what has been printed begins and ends with a text. -/
def Maybe (p : Pr) : Prop := p = Pr.init ∨ Good true p

section
variable (hc : ∀ s ∈ ss, SpotC o s)
include hc

theorem maybe_kw (h : Maybe p) (hw : inked w = true) : Maybe (p.kw o ss w) := by
  rcases h with rfl | h
  · unfold Pr.kw Pr.word
    split
    · rename_i s hs
      refine .inr ⟨(hc s (from_tok s hs)).quiet.2, ?_⟩
      have := firm_text hw
      simpa [Pr.init, runL, Firm] using this
    · exact .inl rfl
  · exact .inr (good_kw hc h hw)

theorem maybe_part (h : Maybe p) {x : Option Spot} (hx : ∀ s, x = some s → s ∈ ss ∧ isBlank s.g = false ∧ firmNode s.g = true)
    (hm : seps = [] ∨ seps = [.space]) : Maybe (p.part? o seps x) := by
  cases x with
  | none => exact h
  | some s =>
    obtain ⟨h1, h2, h3⟩ := hx s rfl
    rcases h with rfl | h
    · refine .inr ⟨(hc s h1).quiet.1, ?_⟩
      have hf := (hc s h1).firm h2 h3
      rcases hm with rfl | rfl
      · simpa [Pr.part?, Pr.part, Pr.init, sepOr, runL, Firm] using hf
      · have e : runD Doc.space (some true) = some true := rfl
        simpa [Pr.part?, Pr.part, Pr.init, sepOr, runL, Firm, e] using hf
    · refine .inr (good_part1 hc h h1 h2 h3 ?_)
      rcases hm with rfl | rfl
      · exact sep_nil
      · exact sep_space

theorem maybe_rparen (h : Maybe p) : Maybe (p.rparen? o ss) := by
  rcases h with rfl | h
  · unfold Pr.rparen?
    split
    · rename_i s hs
      exact .inr ⟨(hc s (from_tok s hs)).quiet.2, rfl⟩
    · exact .inl rfl
  · exact .inr (good_rparen hc h)

theorem maybe_use (h : Maybe p) {lp : Bool} {l : List Spot} (hx : ∀ s ∈ l, s ∈ ss ∧ isBlank s.g = false ∧ firmNode s.g = true)
    (hm : SepOk [sep]) : Maybe (fmtUseParts o sep lp l p) ∧ (l ≠ [] → Good true (fmtUseParts o sep lp l p)) := by
  cases l with
  | nil => exact ⟨h, fun he => absurd rfl he⟩
  | cons s l =>
    have : Good true (fmtUseParts o sep lp (s :: l) p) := by
      rcases h with rfl | h
      · exact start_useParts hc hx
      · exact good_useParts hc h hx hm
    exact ⟨.inr this, fun _ => this⟩

theorem maybe_indexes (h : Maybe p) : Maybe (fmtIndexes o (nodeSpots .INDEX ss) p) ∧
    (nodeSpots .INDEX ss ≠ [] → Good true (fmtIndexes o (nodeSpots .INDEX ss) p)) := by
  have hx := firm_nodes (k := .INDEX) (ss := ss) rfl
  revert hx
  generalize nodeSpots .INDEX ss = l
  intro hx
  cases l with
  | nil => exact ⟨h, fun he => absurd rfl he⟩
  | cons s l =>
    have h1 := hx s (.head _)
    have : Good true (fmtIndexes o (s :: l) p) := by
      unfold fmtIndexes
      rw [List.foldl_cons]
      refine good_fold ?_ fun _ s hs hp => good_part1 hc hp (hx s (.tail _ hs)).1 (hx s (.tail _ hs)).2.1 (hx s (.tail _ hs)).2.2 (by
        split
        · exact sep_nil
        · exact sep_space)
      rcases h with rfl | h
      · refine ⟨(hc s h1.1).quiet.1, ?_⟩
        have hf := (hc s h1.1).firm h1.2.1 h1.2.2
        simpa [Pr.part, Pr.init, sepOr, runL, Firm] using hf
      · refine good_part1 hc h h1.1 h1.2.1 h1.2.2 ?_
        split
        · exact sep_nil
        · exact sep_space
    exact ⟨.inr this, fun _ => this⟩

theorem maybe_ref (h : Maybe p) (hx : (tokSpot .REF_TYPE ss).isSome = true) : Good true (fmtRefType o (tokSpot .REF_TYPE ss) p) := by
  rcases h with rfl | h
  · obtain ⟨s, hx⟩ := Option.isSome_iff_exists.mp hx
    have h1 := is_tok s hx
    rw [hx]
    have := firm_text (tok_ink hc h1.1 rfl h1.2)
    exact ⟨(hc s h1.1).quiet.2, by simpa [fmtRefType, Pr.init, runL, Firm] using this⟩
  · exact good_ref (k := .REF_TYPE) hc h rfl is_tok

end

/-- The only production of the kind. -/
macro "prod1" h:ident : tactic => `(tactic|
  (obtain ⟨q, hq, $h⟩ := $h; simp only [productions, List.mem_singleton] at hq; subst hq))

theorem is_node {g : Green} (h : (Term.node k).is g) : g.isNodeOf k = true := by
  cases g with
  | tok _ _ => exact h.elim
  | node k' c => simpa [Green.isNodeOf, Term.is] using h

theorem is_token {g : Green} (h : (Term.tok k).is g) : g.isTokOf k = true := by
  cases g with
  | tok k' c => simpa [Green.isTokOf, Term.is] using h
  | node _ _ => exact h.elim

theorem firm_only (hs : ss.map (·.g) = cs) (hc : ∀ s ∈ ss, SpotC o s) {ts : List Term} (hp : Match [.one ts] (signif cs)) (hw : signif cs = cs)
    (ht : (ts.all fun t => match t with | .tok _ => true | _ => false) = true) : Firm (fmtText ss) := by
  obtain ⟨k, t, rfl, hb⟩ := text_only hp hw ht
  cases ss with
  | nil => cases hs
  | cons s l =>
    cases l with
    | cons _ _ => simp at hs
    | nil =>
      have hg : s.g = .tok k t := by simpa using hs
      have := (hc s (.head _)).tok k t hg (by rw [hg]; exact hb)
      simpa [fmtText, hg, Green.textL, Green.text] using firm_text this

/-- The document of a node begins and ends with a text, and there are no two line breaks without a text in between. -/
theorem node_run (hs : ss.map (·.g) = cs) (hc : ∀ s ∈ ss, SpotC o s) (hp : Prod k cs) (hno : NodeOk k cs) (hr : k ≠ .ROOT)
    {before : List Green} (hn : ∀ s ∈ ss, shouldIgnore o s.before before = false) :
    Loose (fmtNode o before k ss) ∧ (firmNode (.node k cs) = true → Firm (fmtNode o before k ss)) := by
  have both : ∀ {d : Doc}, Firm d → Loose d ∧ (firmNode (.node k cs) = true → Firm d) := fun h => ⟨h.loose, fun _ => h⟩
  have st : opens k = true → ∀ w, inked w = true → Good true ((Pr.init.lparen o ss).kw o ss w) := fun ho w hw =>
    start hc (opened hs hp ho) hw
  cases k
  case ROOT => exact absurd rfl hr
  case FUNC_TYPE =>
    exact both (good_parts hc (good_parts hc (st rfl _ rfl) (firm_nodes rfl) sep_space) (firm_nodes rfl) sep_space).close
  case PARAM =>
    exact both (good_parts hc (good_tok (k := .IDENT) hc (st rfl _ rfl) rfl is_tok sep_space) (firm_nodes rfl) sep_space).close
  case RESULT => exact both (good_parts hc (st rfl _ rfl) (firm_nodes rfl) sep_space).close
  case IMPORT_DESC_TYPE_USE => exact both (firm_named hc rfl (st rfl _ rfl))
  case IMPORT_DESC_TABLE_TYPE => exact both (firm_named hc rfl (st rfl _ rfl))
  case IMPORT_DESC_MEMORY_TYPE => exact both (firm_named hc rfl (st rfl _ rfl))
  case IMPORT_DESC_GLOBAL_TYPE => exact both (firm_named hc rfl (st rfl _ rfl))
  case MODULE_FIELD_TYPE => exact both (firm_named hc rfl (st rfl _ rfl))
  case BLOCK_BLOCK => exact both (firm_blockLike hc (st rfl _ rfl))
  case BLOCK_LOOP => exact both (firm_blockLike hc (st rfl _ rfl))
  case BLOCK_IF => exact both (firm_blockIf hc (st rfl _ rfl))
  case BLOCK_IF_ELSE => exact both (by simpa [fmtNode, fmtBranch, Firm, runD] using (good_branch hc (st rfl _ rfl)).docs)
  case EXPORT => exact both (good_part hc (st rfl _ rfl) (firm_node rfl) sep_space).close
  case IMPORT =>
    exact both (good_part hc (good_part hc (st rfl _ rfl) (firm_node rfl) sep_space) (firm_node rfl) sep_space).close
  case LOCAL =>
    exact both (good_parts hc (good_tok (k := .IDENT) hc (st rfl _ rfl) rfl is_tok sep_space) (firm_nodes rfl) sep_space).close
  case MEM_USE => exact both (good_part hc (st rfl _ rfl) (firm_node rfl) sep_space).close
  case TABLE_USE => exact both (good_part hc (st rfl _ rfl) (firm_node rfl) sep_space).close
  case MODULE_FIELD_START => exact both (good_part hc (st rfl _ rfl) (firm_node rfl) sep_space).close
  case DATA => exact both (good_toks (k := .STRING) hc (st rfl _ rfl) rfl sep_space).close
  case ELEM => exact both (good_ownsExpr hc (good_parts hc (st rfl _ rfl) (firm_nodes rfl) sep_space)).close
  case MODULE_FIELD_DATA =>
    exact both (good_toks (k := .STRING) hc (good_ownOffset hc (good_part hc (good_tok (k := .IDENT) hc (st rfl _ rfl) rfl is_tok sep_space)
      (firm_node rfl) sep_space)) rfl sep_soft).close
  case MODULE_FIELD_ELEM =>
    exact both (good_part hc (good_ownOffset hc (good_part hc (good_word hc (good_tok (k := .IDENT) hc (st rfl _ rfl) rfl is_tok sep_space)
      from_word rfl sep_space) (firm_node rfl) sep_space)) (firm_node rfl) sep_space).close
  case MODULE_FIELD_EXPORT => exact both (good_part hc (good_part hc (st rfl _ rfl) (firm_node rfl) sep_space) firm_export sep_space).close
  case MODULE_FIELD_IMPORT =>
    exact both (good_part hc (good_part hc (good_part hc (st rfl _ rfl) (firm_node rfl) sep_space) (firm_node rfl) sep_space)
      firm_import sep_space).close
  case MODULE_FIELD_FUNC =>
    exact both (good_nested hc (good_firstParts hc (good_funcTypeUse hc (good_parts hc (good_part hc
      (good_tok (k := .IDENT) hc (st rfl _ rfl) rfl is_tok sep_space) (firm_node rfl) sep_space) (firm_nodes rfl) sep_space))
      (firm_nodes rfl) sep_nest) firm_instrs).close
  case MODULE_FIELD_GLOBAL =>
    exact both (good_nested hc (good_part hc (good_part hc (good_part hc (good_tok (k := .IDENT) hc (st rfl _ rfl) rfl is_tok sep_space)
      (firm_node rfl) sep_space) (firm_node rfl) sep_space) (firm_node rfl) sep_space) firm_instrs).close
  case MODULE_FIELD_MEMORY =>
    exact both (good_part hc (good_part hc (good_part hc (good_part hc (good_tok (k := .IDENT) hc (st rfl _ rfl) rfl is_tok sep_space)
      (firm_node rfl) sep_space) (firm_node rfl) sep_space) (firm_node rfl) sep_space) (firm_node rfl) sep_space).close
  case MODULE_FIELD_TABLE =>
    exact both (good_part hc (good_tok (k := .REF_TYPE) hc (good_part hc (good_part hc (good_part hc
      (good_tok (k := .IDENT) hc (st rfl _ rfl) rfl is_tok sep_space) (firm_node rfl) sep_space) (firm_node rfl) sep_space)
      (firm_node rfl) sep_space) rfl is_tok sep_space) (firm_node rfl) sep_space).close
  case BLOCK_IF_THEN =>
    refine ⟨?_, fun hf => ?_⟩
    · simpa [fmtNode, fmtBranch, Loose, runD] using (good_branch (w := t!"then") hc (good_kw hc (good_lparen hc good_init) rfl)).docs
    · have hl : Green.hasTok .L_PAREN (.node .BLOCK_IF_THEN cs) = true := by
        simpa [firmNode, Green.isNodeOf] using hf
      obtain ⟨g, hg, h1⟩ := List.any_eq_true.mp hl
      have h2 := good_branch (w := t!"then") hc (start hc (.inl (tok_some hs hg h1)) rfl)
      simpa [fmtNode, fmtBranch, Firm, runD] using h2.docs
  case OFFSET =>
    refine ⟨(good_expr hc (good_kw hc (good_lparen hc good_init) rfl)).loose, fun hf => ?_⟩
    have hl : Green.hasTok .KEYWORD (.node .OFFSET cs) = true := by simpa [firmNode, Green.isNodeOf] using hf
    obtain ⟨g, hg, h1⟩ := List.any_eq_true.mp hl
    exact (good_expr hc (start hc (.inr (tok_some hs hg h1)) rfl)).firm
  case ELEM_EXPR =>
    refine ⟨(good_expr hc (good_kw hc (good_lparen hc good_init) rfl)).loose, fun hf => ?_⟩
    have hl : Green.hasTok .KEYWORD (.node .ELEM_EXPR cs) = true := by simpa [firmNode, Green.isNodeOf] using hf
    obtain ⟨g, hg, h1⟩ := List.any_eq_true.mp hl
    exact (good_expr hc (start hc (.inr (tok_some hs hg h1)) rfl)).firm
  case MODULE =>
    refine both ?_
    simp only [fmtNode, fmtModule]
    have h1 := good_tok (k := .IDENT) hc (st rfl t!"module" rfl) rfl is_tok sep_space
    have h2 : Good false (fmtFields o before (ss.filter fun s => s.g.isField) ⟨[],
        (((Pr.init.lparen o ss).kw o ss t!"module").tok? o .space (tokSpot .IDENT ss)).triv⟩) := by
      refine good_fold ⟨h1.triv, rfl⟩ fun p s hm hg => ?_
      obtain ⟨hm1, hm2⟩ := List.mem_filter.mp hm
      have h3 : isBlank s.g = false ∧ firmNode s.g = true := by
        simp only [Green.isField, Bool.or_eq_true] at hm2
        rcases hm2 with ((((((((h | h) | h) | h) | h) | h) | h) | h) | h) | h <;> exact firm_of rfl h
      rw [hn s hm1, hg.sepOr]
      simp only [Bool.false_eq_true, if_false]
      exact hg.join sep_hard ((hc s hm1).firm h3.1 h3.2) (hc s hm1).quiet.1
    refine Good.close ⟨h2.triv, ?_⟩
    rw [runL_append, h1.docs]
    simp only [runL, runD]
    exact h2.docs
  case EXPORT_DESC_FUNC => exact both (firm_exportDesc hc (opened_lp hs hp rfl))
  case EXPORT_DESC_TABLE => exact both (firm_exportDesc hc (opened_lp hs hp rfl))
  case EXPORT_DESC_MEMORY => exact both (firm_exportDesc hc (opened_lp hs hp rfl))
  case EXPORT_DESC_GLOBAL => exact both (firm_exportDesc hc (opened_lp hs hp rfl))
  case MODULE_NAME => prod1 hp; exact both (firm_only hs hc hp (signif_whole hno (by decide)) (by decide))
  case NAME => prod1 hp; exact both (firm_only hs hc hp (signif_whole hno (by decide)) (by decide))
  case VAL_TYPE => prod1 hp; exact both (firm_only hs hc hp (signif_whole hno (by decide)) (by decide))
  case INDEX => prod1 hp; exact both (firm_only hs hc hp (signif_whole hno (by decide)) (by decide))
  case MEMORY_TYPE =>
    prod1 hp
    obtain ⟨t, ht, g, hg, hi⟩ := begins hp
    cases List.mem_singleton.mp ht
    obtain ⟨s, hx⟩ := Option.isSome_iff_exists.mp (node_some (k := .LIMITS) hs hg (is_node hi))
    have h1 := firm_node rfl s hx
    refine both ?_
    simp only [fmtNode, fmtMemoryType, hx]
    exact (hc s h1.1).firm h1.2.1 h1.2.2
  case TABLE_TYPE =>
    prod1 hp
    obtain ⟨t, ht, g, hg, hi⟩ := begins hp
    cases List.mem_singleton.mp ht
    obtain ⟨s, hx⟩ := Option.isSome_iff_exists.mp (node_some (k := .LIMITS) hs hg (is_node hi))
    have h1 := firm_node rfl s hx
    refine both (good_tok (k := .REF_TYPE) hc (p := fmtHead o (nodeSpot .LIMITS ss) Pr.init) ?_ rfl is_tok sep_space).firm
    rw [hx]
    exact ⟨(hc s h1.1).quiet.1, by simpa [fmtHead, Pr.init, runL, Firm] using (hc s h1.1).firm h1.2.1 h1.2.2⟩
  case LIMITS =>
    prod1 hp
    obtain ⟨t, ht, g, hg, hi⟩ := begins hp
    cases List.mem_singleton.mp ht
    obtain ⟨s, hx⟩ := Option.isSome_iff_exists.mp (tok_some (k := .UNSIGNED_INT) hs hg (is_token hi))
    have h1 := is_tok s hx
    refine both (good_tok (k := .UNSIGNED_INT) hc (p := fmtMin o (tokSpot .UNSIGNED_INT ss) Pr.init) ?_ rfl is_get sep_space).firm
    rw [hx]
    exact ⟨(hc s h1.1).quiet.2, by simpa [fmtMin, Pr.init, runL, Firm] using firm_text (tok_ink hc h1.1 rfl h1.2)⟩
  case GLOBAL_TYPE =>
    refine both ?_
    simp only [fmtNode, fmtGlobalType]
    cases hl : tokSpot .L_PAREN ss with
    | some s => exact (good_part hc (start hc (.inl (by rw [hl]; rfl)) rfl) (firm_node (k := .VAL_TYPE) rfl) sep_space).close
    | none =>
      obtain ⟨q, hq, hp⟩ := hp
      simp only [productions, List.mem_cons, List.not_mem_nil, or_false] at hq
      obtain ⟨t, ht, g, hg, hi⟩ : ∃ t ∈ [Term.node .VAL_TYPE], ∃ g ∈ cs, t.is g := by
        rcases hq with rfl | rfl
        · exact begins hp
        · obtain ⟨t, ht, g, hg, hi⟩ := begins hp
          cases List.mem_singleton.mp ht
          have := tok_some (k := .L_PAREN) hs hg (is_token hi)
          rw [hl] at this; cases this
      cases List.mem_singleton.mp ht
      obtain ⟨s, hx⟩ := Option.isSome_iff_exists.mp (node_some (k := .VAL_TYPE) hs hg (is_node hi))
      have h1 := firm_node rfl s hx
      simp only [hx]
      exact (hc s h1.1).firm h1.2.1 h1.2.2
  case BLOCK_TYPE =>
    prod1 hp
    refine both ?_
    simp only [fmtNode, fmtBlockType]
    obtain ⟨t, ht, g, hg, hi⟩ := begins hp
    cases hr : nodeSpot .RESULT ss with
    | some s =>
      have h1 := firm_node rfl s hr
      exact (hc s h1.1).firm h1.2.1 h1.2.2
    | none =>
      simp only [List.mem_cons, List.not_mem_nil, or_false] at ht
      rcases ht with rfl | rfl
      · have := node_some (k := .RESULT) hs hg (is_node hi)
        rw [hr] at this; cases this
      · obtain ⟨s, hx⟩ := Option.isSome_iff_exists.mp (node_some (k := .TYPE_USE) hs hg (is_node hi))
        have h1 := firm_node rfl s hx
        simp only [hx]
        exact (hc s h1.1).firm h1.2.1 h1.2.2
  case PLAIN_INSTR =>
    refine both ?_
    have h1 : Good true (fmtInstrName o (tokSpot .INSTR_NAME ss) (Pr.init.lparen o ss)) := by
      cases hl : tokSpot .L_PAREN ss with
      | some s => exact good_name (k := .INSTR_NAME) hc (start_lparen hc (by rw [hl]; rfl)) rfl is_tok
      | none =>
        obtain ⟨q, hq, hp⟩ := hp
        simp only [productions, List.mem_cons, List.not_mem_nil, or_false] at hq
        rcases hq with rfl | rfl
        · obtain ⟨t, ht, g, hg, hi⟩ := begins hp
          cases List.mem_singleton.mp ht
          have := tok_some (k := .L_PAREN) hs hg (is_token hi)
          rw [hl] at this; cases this
        · obtain ⟨t, ht, g, hg, hi⟩ := begins hp
          cases List.mem_singleton.mp ht
          obtain ⟨s, hx⟩ := Option.isSome_iff_exists.mp (tok_some (k := .INSTR_NAME) hs hg (is_token hi))
          have h1 := is_tok s hx
          rw [hx, Pr.lparen, hl]
          exact ⟨(hc s h1.1).quiet.2, by simpa [fmtInstrName, Pr.init, runL, Firm] using firm_text (tok_ink hc h1.1 rfl h1.2)⟩
    simpa [fmtNode, fmtPlainInstr, Firm, runD] using (good_rparen hc (good_operands hc h1)).docs
  case OPERAND =>
    refine both ?_
    prod1 hp
    have hw := signif_whole hno (by decide)
    rw [hw] at hp
    cases hp with
    | one h1 h2 h3 =>
      cases h3
      rename_i t g
      obtain ⟨s, rfl, rfl⟩ : ∃ s, ss = [s] ∧ s.g = g := by
        cases ss with
        | nil => cases hs
        | cons s l =>
          cases l with
          | nil => exact ⟨s, rfl, by simpa using hs⟩
          | cons _ _ => simp at hs
      have hcs := hc s (.head _)
      have hb : isBlank s.g = false := by
        have : s.g ∈ signif [s.g] := by rw [hw]; exact .head _
        simpa using (List.mem_filter.mp this).2
      simp only [fmtNode, fmtOperand]
      cases hg : s.g with
      | tok k t =>
        have e1 : instrSpots [s] = [] := by simp [instrSpots, hg, Green.isInstr, Green.isNodeOf]
        have e2 : nodeSpot .TYPE_USE [s] = none := by simp [nodeSpot, hg, Green.isNodeOf]
        simp only [e1, e2, List.head?_nil, List.head?_cons, Option.bind_some, hg, Green.firstTok]
        exact firm_text (hcs.tok k t hg hb)
      | node k c =>
        rw [hg] at h2
        simp only [instrTerms, List.cons_append, List.nil_append, List.mem_cons, List.not_mem_nil, or_false] at h1
        have hfirm : firmKind k = true → Firm s.d := fun hk => hcs.firm hb (firm_of hk (by rw [hg]; simp [Green.isNodeOf])).2
        rcases h1 with rfl | rfl | rfl | rfl | rfl | rfl | rfl | rfl | rfl | rfl | rfl
        all_goals first
          | exact h2.elim
          | (cases h2
             first
             | (have e1 : instrSpots [s] = [s] := by simp [instrSpots, hg, Green.isInstr, Green.isNodeOf]
                simp only [e1, List.head?_cons]; exact hfirm rfl)
             | (have e1 : instrSpots [s] = [] := by simp [instrSpots, hg, Green.isInstr, Green.isNodeOf]
                have e2 : nodeSpot .TYPE_USE [s] = some s := by simp [nodeSpot, hg, Green.isNodeOf]
                simp only [e1, e2, List.head?_nil]; exact hfirm rfl))
  case TYPE_USE =>
    refine both ?_
    simp only [fmtNode, fmtTypeUse]
    cases hl : tokSpot .L_PAREN ss with
    | some s =>
      exact (good_useParts hc (good_useParts hc (good_rparen hc (good_part hc (start hc (.inl (by rw [hl]; rfl)) rfl)
        (firm_node (k := .INDEX) rfl) sep_space)) (firm_nodes rfl) sep_nest) (firm_nodes rfl) sep_space).firm
    | none =>
      have h0 : Maybe ((((Pr.init.lparen o ss).kw o ss t!"type").part? o [.space] (nodeSpot .INDEX ss)).rparen? o ss) := by
        refine maybe_rparen hc (maybe_part hc (maybe_kw hc (.inl ?_) rfl) (firm_node (k := .INDEX) rfl) (.inr rfl))
        rw [Pr.lparen, hl]
      have h1 := maybe_use (sep := .nest o.indent .softLine) (lp := false) hc h0 (firm_nodes (k := .PARAM) rfl) sep_nest
      have h2 := maybe_use (sep := .space) (lp := false) hc h1.1 (firm_nodes (k := .RESULT) rfl) sep_space
      have hne : nodeSpots .PARAM ss ≠ [] ∨ nodeSpots .RESULT ss ≠ [] := by
        obtain ⟨q, hq, hp⟩ := hp
        simp only [productions, List.mem_cons, List.not_mem_nil, or_false] at hq
        rcases hq with rfl | rfl | rfl
        · obtain ⟨t, ht, g, hg, hi⟩ := begins hp
          cases List.mem_singleton.mp ht
          have := tok_some (k := .L_PAREN) hs hg (is_token hi)
          rw [hl] at this; cases this
        · obtain ⟨t, ht, g, hg, hi⟩ := begins hp
          cases List.mem_singleton.mp ht
          obtain ⟨s, h3, rfl⟩ := spot_of hs hg
          exact .inl fun he => List.not_mem_nil (he ▸ List.mem_filter.mpr ⟨h3, is_node hi⟩ : s ∈ [])
        · obtain ⟨t, ht, g, hg, hi⟩ := begins hp
          cases List.mem_singleton.mp ht
          obtain ⟨s, h3, rfl⟩ := spot_of hs hg
          exact .inr fun he => List.not_mem_nil (he ▸ List.mem_filter.mpr ⟨h3, is_node hi⟩ : s ∈ [])
      rcases hne with hne | hne
      · exact (good_useParts hc (h1.2 hne) (firm_nodes (k := .RESULT) rfl) sep_space).firm
      · exact (h2.2 hne).firm
  case ELEM_LIST =>
    refine both ?_
    simp only [fmtNode, fmtElemList]
    have h0 := maybe_kw (w := t!"func") hc (.inl rfl) rfl
    have h1 := maybe_indexes hc h0
    have h2 := maybe_ref hc h1.1
    have h3 : Good true (fmtRefType o (tokSpot .REF_TYPE ss) (fmtIndexes o (nodeSpots .INDEX ss) (Pr.init.kw o ss t!"func"))) := by
      obtain ⟨q, hq, hp⟩ := hp
      simp only [productions, List.mem_cons, List.not_mem_nil, or_false] at hq
      rcases hq with rfl | rfl | rfl
      · obtain ⟨t, ht, g, hg, hi⟩ := begins hp
        cases List.mem_singleton.mp ht
        cases g with
        | node _ _ => exact hi.elim
        | tok k' t =>
          obtain ⟨s, hx⟩ := Option.isSome_iff_exists.mp (tok_some (k := .KEYWORD) hs hg (by simpa [Green.isTokOf] using hi.1))
          refine good_ref (k := .REF_TYPE) hc (good_indexes hc ?_) rfl is_tok
          rw [Pr.kw, hx]
          exact ⟨(hc s (from_tok s hx)).quiet.2, rfl⟩
      · obtain ⟨t, ht, g, hg, hi⟩ := begins hp
        cases List.mem_singleton.mp ht
        obtain ⟨s, h3, rfl⟩ := spot_of hs hg
        exact good_ref (k := .REF_TYPE) hc (h1.2 fun he => List.not_mem_nil
          (he ▸ List.mem_filter.mpr ⟨h3, is_node hi⟩ : s ∈ [])) rfl is_tok
      · obtain ⟨t, ht, g, hg, hi⟩ := begins hp
        cases List.mem_singleton.mp ht
        exact h2 (tok_some (k := .REF_TYPE) hs hg (is_token hi))
    have h4 := good_ownsExpr hc h3
    rw [h4.triv, List.append_nil]
    exact h4.firm
  all_goals (obtain ⟨_, h, _⟩ := hp; simp [productions] at h)

end Verif.Calm
