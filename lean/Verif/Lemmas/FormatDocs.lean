import Verif.Lemmas.FormatKinds
import Verif.Lemmas.FormatText
import Verif.Lemmas.Keys
/-!
The document of a node prints the tokens of the node.
-/
namespace Verif
open Spec

variable {o : FmtOpts} {lb : Text}

/-! ### The characters of words -/

section
variable {c : Char} (hc : c ∉ idCharsWasm)
include hc

theorem out_of {ds : List Char} (h : (ds.all fun c => idCharsWasm.contains c) = true) : c ∉ ds := fun hm =>
  hc (by simpa using List.all_eq_true.mp h c hm)

theorem out_run {ds : List Char} {t : Text} (h : IsRun ds t) (hd : c ∉ ds) : c ∉ t := by
  obtain ⟨a, r, rfl, h1, h2⟩ := h
  intro hm
  rcases List.mem_cons.mp hm with rfl | hm
  · exact hd h1
  · rcases h2 _ hm with h | h
    · exact hd h
    · subst h; exact hc (by decide)

theorem out_digits {ds : List Char} {t : Text} (h : IsDigits ds t) (hd : c ∉ ds) : c ∉ t := by
  obtain ⟨a, r, rfl, h1, h2, _⟩ := h
  exact out_run hc ⟨a, r, rfl, h1, h2⟩ hd

theorem out_append {a b : Text} (ha : c ∉ a) (hb : c ∉ b) : c ∉ a ++ b := by simp [ha, hb]

theorem out_unsigned {t : Text} (h : IsUnsigned t) : c ∉ t := by
  rcases h with h | ⟨r, rfl, h⟩
  · exact out_digits hc h (out_of hc (by decide))
  · exact out_append hc (a := ['0', 'x']) (out_of hc (by decide)) (out_digits hc h (out_of hc (by decide)))

theorem out_int {t : Text} (h : IsInt t) : c ∉ t := by
  rcases h with h | ⟨r, rfl | rfl, h⟩
  · exact out_unsigned hc h
  · exact out_append hc (a := ['+']) (out_of hc (by decide)) (out_unsigned hc h)
  · exact out_append hc (a := ['-']) (out_of hc (by decide)) (out_unsigned hc h)

theorem out_sign {t : Text} (h : IsSign t) : c ∉ t := by
  rcases h with rfl | rfl | rfl <;> exact out_of hc (by decide)

theorem out_floatNum {ds e : List Char} {t : Text} (h : IsFloatNum ds e t) (hd : c ∉ ds) (he : c ∉ e) : c ∉ t := by
  obtain ⟨i, f, x, rfl, hi, hf, hx⟩ := h
  have h1 := out_run hc hi hd
  have h2 : c ∉ f := by
    rcases hf with rfl | ⟨r, rfl, rfl | h⟩
    · simp
    · exact out_of hc (by decide)
    · exact out_append hc (a := ['.']) (out_of hc (by decide)) (out_run hc h hd)
  have h3 : c ∉ x := by
    rcases hx with rfl | ⟨c', g, r, rfl, hc', hg, hr⟩
    · simp
    · refine out_append hc (a := [c']) ?_ (out_append hc (out_sign hc hg) (out_run hc hr (out_of hc (by decide))))
      intro hm
      simp only [List.mem_singleton] at hm
      subst hm; exact he hc'
  exact out_append hc (out_append hc h1 h2) h3

theorem out_float {t : Text} (h : IsFloat t) : c ∉ t := by
  obtain ⟨⟨g, m, rfl, hg, hm⟩, _⟩ := h
  refine out_append hc (out_sign hc hg) ?_
  rcases hm with rfl | rfl | ⟨r, rfl, h⟩ | h | ⟨r, rfl, h⟩
  · exact out_of hc (by decide)
  · exact out_of hc (by decide)
  · exact out_append hc (out_of hc (by decide)) (out_run hc h (out_of hc (by decide)))
  · exact out_floatNum hc h (out_of hc (by decide)) (out_of hc (by decide))
  · exact out_append hc (a := ['0', 'x']) (out_of hc (by decide))
      (out_floatNum hc h (out_of hc (by decide)) (out_of hc (by decide)))

/-- The tokens other than white space, comments, parentheses, strings and errors consist of word characters. -/
theorem out_word {k : Kind} {t : Text} (h : TokenShape k t) (hk : k ∉ [Kind.WHITESPACE, .LINE_COMMENT, .BLOCK_COMMENT,
    .L_PAREN, .R_PAREN, .STRING, .ERROR]) : c ∉ t := by
  have hid : c ∉ idChars := out_of hc (by decide)
  cases k <;> simp only [TokenShape] at h <;> first | exact (hk (by decide)).elim | skip
  case KEYWORD | NUM_TYPE | REF_TYPE | HEAP_TYPE | SHARE =>
    refine out_of hc ?_
    revert h
    revert t
    decide
  case VEC_TYPE => subst h; exact out_of hc (by decide)
  case INSTR_NAME =>
    obtain ⟨a, r, rfl, h1, h2⟩ := h
    refine out_append hc (a := [a]) ?_ (fun hm => hid (h2 _ hm))
    intro hm
    simp only [List.mem_singleton] at hm
    subst hm
    exact (out_of hc (ds := lowers) (by decide)) h1
  case IDENT =>
    obtain ⟨r, rfl, _, h2⟩ := h
    exact out_append hc (a := ['$']) (out_of hc (by decide)) (fun hm => hid (h2 _ hm))
  case UNSIGNED_INT => exact out_unsigned hc h
  case INT => exact out_int hc h
  case FLOAT => exact out_float hc h.1
  case MEM_ARG =>
    obtain ⟨r, h, hu⟩ := h
    rcases h with rfl | rfl
    · exact out_append hc (out_of hc (by decide)) (out_unsigned hc hu)
    · exact out_append hc (out_of hc (by decide)) (out_unsigned hc hu)

end

theorem tok_tx {k : Kind} {t : Text} (h : TokenShape k t) (hb : isBlank (.tok k t) = false) (he : k ≠ .ERROR)
    (hs : k = .STRING → ClosedString t) : Tx [t] t := by
  by_cases hk : k ∈ [Kind.WHITESPACE, .LINE_COMMENT, .BLOCK_COMMENT, .L_PAREN, .R_PAREN, .STRING, .ERROR]
  · simp only [List.mem_cons, List.not_mem_nil, or_false] at hk
    rcases hk with rfl | rfl | rfl | rfl | rfl | rfl | rfl
    · cases hb
    · cases hb
    · cases hb
    · have : t = ['('] := h
      subst this; exact tx_lpar
    · have : t = [')'] := h
      subst this; exact tx_rpar
    · exact Tx.one (p := .solid t) (.inr (hs rfl)) (by simp [Piece.IsLine])
    · exact absurd rfl he
  · refine Tx.one (p := .solid t) (.inl ⟨tokenShape_ne_nil h, fun c hc => ?_⟩) (by simp [Piece.IsLine])
    by_cases hi : c ∈ idCharsWasm
    · exact hi
    · exact absurd hc (out_word hi h hk)

/-! ### Soft beginnings -/

/-- The documents begin with something that is neither a word nor a string. -/
def Hard (lb : Text) (ds : List Doc) : Prop := ∀ out, PrintsL lb ds out → Soft out ∧ out ≠ []

theorem Hard.append {a b : List Doc} (h : Hard lb a) : Hard lb (a ++ b) := by
  intro out ho
  rw [printsL_append] at ho
  obtain ⟨x, y, rfl, hx, _⟩ := ho
  exact ⟨(h x hx).1.append (.inl (h x hx).2), by simp [(h x hx).2]⟩

theorem hard_lpar : Hard lb [.text t!"("] := by
  intro out ho
  rw [printsL_one] at ho
  simp only [Prints] at ho
  subst ho
  exact ⟨soft_lpar, by simp⟩

theorem hard_line (hlb : IsLineBreak lb) : Hard lb [.hardLine] := fun out ho =>
  ⟨(gap_hardLine hlb (printsL_one.mp ho)).soft, (gap_hardLine hlb (printsL_one.mp ho)).ne⟩

theorem Hard.word {p : Pr} {x : Option Spot} {w : Text} (h : Hard lb p.docs) : Hard lb (p.word o x w).docs := by
  cases x with
  | none => exact h
  | some s => simp only [Pr.word, List.append_assoc]; exact h.append

theorem Hard.tok {p : Pr} {x : Option Spot} {sep : Doc} (h : Hard lb p.docs) : Hard lb (p.tok? o sep x).docs := by
  cases x with
  | none => exact h
  | some s => simp only [Pr.tok?, Pr.tok, Pr.tokAs, List.append_assoc]; exact h.append

theorem Hard.parts {seps : List Doc} : ∀ {xs : List Spot} {p : Pr}, Hard lb p.docs → Hard lb (p.parts o seps xs).docs
  | [], _, h => h
  | s :: xs, p, h => by
    refine Hard.parts (xs := xs) (p := p.part o seps s) ?_
    simp only [Pr.part, List.append_assoc]
    exact h.append

theorem Hard.close {p : Pr} (h : Hard lb p.docs) {out : Text} (ho : Prints lb p.close out) : Soft out := by
  have h' : Hard lb (p.docs ++ p.triv ++ [.text t!")"]) := by rw [List.append_assoc]; exact h.append
  exact (h' out (prints_list.mp ho)).1

theorem hard_lparen {ss : List Spot} {s : Spot} (h : sel (.tok .L_PAREN) 0 ss = some s) :
    Hard lb (Pr.init.lparen o ss).docs := by
  unfold Pr.lparen
  rw [tokSpot_sel, h]
  exact hard_lpar

theorem lines_soft (hlb : IsLineBreak lb) {xs : List Spot} {out : Text}
    (h : PrintsL lb (Pr.init.parts o [.hardLine] xs).docs out) : Soft out := by
  cases xs with
  | nil =>
    simp only [Pr.parts, List.foldl_nil, Pr.init, PrintsL] at h
    subst h; exact soft_nil
  | cons s xs =>
    have : Hard lb ((Pr.init.part o [.hardLine] s).parts o [.hardLine] xs).docs := by
      refine Hard.parts ?_
      simp only [Pr.part, Pr.init, sepOr, List.isEmpty_nil, if_true, List.nil_append]
      exact (hard_line hlb).append
    exact (this out h).1

section
variable {cs : List Green} {ss : List Spot} (hlb : IsLineBreak lb) (hk : Kids lb cs ss)
include hlb hk

theorem soft_param (h : Prod .PARAM cs) {out : Text} (ho : Prints lb (fmtParam o ss) out) : Soft out := by
  prods h
  have : ∃ s, sel (.tok .L_PAREN) 0 ss = some s := by
    rcases h with h | h <;> exact sel_some (q := .tok .L_PAREN) (hk.mt h) rfl
  obtain ⟨s, hs⟩ := this
  unfold fmtParam at ho
  exact Hard.close (Hard.parts (Hard.tok (Hard.word (hard_lparen hs)))) ho

theorem soft_result (h : Prod .RESULT cs) {out : Text} (ho : Prints lb (fmtResult o ss) out) : Soft out := by
  prods h
  obtain ⟨s, hs⟩ := sel_some (q := .tok .L_PAREN) (hk.mt h) rfl
  unfold fmtResult at ho
  exact Hard.close (Hard.parts (Hard.word (hard_lparen hs))) ho

omit hlb in
theorem hasTok_of {k : Kind} {s : Spot} {k' : Kind} (h : sel (.tok k) 0 ss = some s) : (Green.node k' cs).hasTok k = true := by
  have hm : s ∈ sels (.tok k) ss := List.mem_of_getElem? h
  obtain ⟨h1, h2⟩ := List.mem_filter.mp hm
  simp only [Green.hasTok, Green.children, List.any_eq_true]
  exact ⟨s.g, by rw [← hk.gs]; exact List.mem_map_of_mem h1, h2⟩

theorem soft_expr {w : Text} {k' : Kind} (h : Match [lp, oneW w, instrs, rp] (signif cs) ∨ Match [.one instrTerms] (signif cs))
    (hn : (Green.node k' cs).hasTok .KEYWORD = false) {out : Text} (ho : Prints lb (fmtExpr o w ss) out) : Soft out := by
  rcases h with h | h
  · exfalso
    have h1 := at_lparen hlb hk (o := o) (at_init (hk.mt h))
    obtain ⟨a, b, e1, e2, e3, _⟩ := h1
    obtain ⟨g, r, e4, ⟨t, e5, e6⟩, e7⟩ := match_one_inv e3
    obtain ⟨s, l, rfl, rfl, rfl⟩ := map_eq_cons' e4
    have hm : s ∈ ss := (sig_mem (by rw [e1]; simp)).1
    simp only [List.mem_singleton] at e5
    subst e5
    have : s.g.isTokOf .KEYWORD = true := Pick.takes_on (q := .tok .KEYWORD) rfl e6
    have h2 : (Green.node k' cs).hasTok .KEYWORD = true := by
      simp only [Green.hasTok, Green.children, List.any_eq_true]
      exact ⟨s.g, by rw [← hk.gs]; exact List.mem_map_of_mem hm, this⟩
    rw [hn] at h2; cases h2
  · have h0 := at_init (lb := lb) (hk.mt h)
    have e1 : Pr.init.lparen o ss = Pr.init := by
      unfold Pr.lparen; rw [tokSpot_sel, sel_none h0 (by decide)]
    have e2 : Pr.init.kw o ss w = Pr.init := by
      unfold Pr.kw Pr.word; rw [tokSpot_sel, sel_none h0 (by decide)]
    have e3 : ∀ p : Pr, p.rparen? o ss = p := by
      intro p; unfold Pr.rparen?; rw [tokSpot_sel, sel_none h0 (by decide)]
    unfold fmtExpr at ho
    rw [e1, e2, e3] at ho
    have := prints_list.mp ho
    simp only [Pr.nested, Pr.init, List.nil_append] at this
    exact lines_soft hlb (prints_list.mp (prints_nest.mp (printsL_one.mp this)))

theorem soft_then (h : Prod .BLOCK_IF_THEN cs) (hn : (Green.node .BLOCK_IF_THEN cs).hasTok .L_PAREN = false) {out : Text}
    (ho : Prints lb (fmtBranch o t!"then" ss) out) : Soft out := by
  prods h
  rcases h with h | h
  · have h0 := at_init (lb := lb) (hk.mt h)
    have e1 : Pr.init.lparen o ss = Pr.init := by
      unfold Pr.lparen; rw [tokSpot_sel, sel_none h0 (by decide)]
    have e2 : Pr.init.kw o ss t!"then" = Pr.init := by
      unfold Pr.kw Pr.word; rw [tokSpot_sel, sel_none h0 (by decide)]
    have e3 : ∀ p : Pr, p.rparen? o ss = p := by
      intro p; unfold Pr.rparen?; rw [tokSpot_sel, sel_none h0 (by decide)]
    have e4 : tokSpot .IDENT ss = none := by rw [tokSpot_sel, sel_none h0 (by decide)]
    unfold fmtBranch at ho
    rw [e1, e2, e3, e4] at ho
    exact lines_soft hlb (prints_list.mp (prints_nest.mp ho))
  · obtain ⟨s, hs⟩ := sel_some (q := .tok .L_PAREN) (hk.mt h) rfl
    have := hasTok_of hk (k' := .BLOCK_IF_THEN) hs
    rw [hn] at this; cases this

end

/-! ### All nodes -/

/-- What is presumed of a tree. -/
structure Fit (o : FmtOpts) (g : Green) : Prop where
  derived : Derived g
  shaped : Shaped g
  nodes : ∀ kc ∈ g.nodes, ¬ Lossy kc.1 kc.2
  toks : ∀ kt ∈ g.toks, TokenShape kt.1 kt.2 ∧ kt.1 ≠ .ERROR ∧ (kt.1 = .STRING → ClosedString kt.2) ∧
    (kt.1 = .LINE_COMMENT → ¬ NamesDirective o.directive kt.2)

/-- No comment of the list is the ignore directive. -/
def NoDir (o : FmtOpts) (gs : List Green) : Prop := ∀ t, Green.tok .LINE_COMMENT t ∈ gs → isDirective o t = false

theorem isDirective_names {t : Text} (h : isDirective o t = true) : NamesDirective o.directive t := by
  unfold isDirective at h
  split at h
  · rename_i rest he
    obtain ⟨s, hs, h2⟩ := Option.bind_eq_some_iff.mp he
    have hc := stripPrefix_some hs
    have h2 := stripPrefix_some h2
    refine ⟨s.takeWhile isUnicodeWs, rest, ?_, fun x hx => (isUnicodeWs_iff x).mp (takeWhile_all hx)⟩
    have h3 : s = s.takeWhile isUnicodeWs ++ s.dropWhile isUnicodeWs := (List.takeWhile_append_dropWhile).symm
    rw [h2] at h3
    rw [hc, List.append_assoc, ← h3]
    rfl
  · cases h

theorem ignore_false {a b : List Green} (ha : NoDir o a) (hb : NoDir o b) : shouldIgnore o a b = false := by
  unfold shouldIgnore
  split
  · rename_i t ht
    unfold twoBefore at ht
    split at ht
    · rename_i g hg
      cases ht
      exact ha t (List.mem_of_getElem? hg)
    · exact hb t (List.mem_of_getElem? ht)
  · rfl

theorem toks_child {k : Kind} {cs : List Green} {g : Green} (hg : g ∈ cs) {kt : Kind × Text} (h : kt ∈ g.toks) :
    kt ∈ (Green.node k cs).toks := by
  simp only [Green.toks]
  induction cs with
  | nil => cases hg
  | cons c cs ih =>
    simp only [Green.toksL, List.mem_append]
    rcases List.mem_cons.mp hg with rfl | hg
    · exact .inl h
    · exact .inr (ih hg)

theorem nodes_child {k : Kind} {cs : List Green} {g : Green} (hg : g ∈ cs) {kc : Kind × List Green} (h : kc ∈ g.nodes) :
    kc ∈ (Green.node k cs).nodes := by
  simp only [Green.nodes, List.mem_cons]
  right
  induction cs with
  | nil => cases hg
  | cons c cs ih =>
    simp only [Green.nodesL, List.mem_append]
    rcases List.mem_cons.mp hg with rfl | hg
    · exact .inl h
    · exact .inr (ih hg)

theorem shapedL_mem : ∀ {cs : List Green} {g : Green}, ShapedL cs → g ∈ cs → Shaped g
  | c :: cs, g, h, hg => by
    rcases List.mem_cons.mp hg with rfl | hg
    · exact h.1
    · exact shapedL_mem h.2 hg

theorem Fit.child {k : Kind} {cs : List Green} {g : Green} (h : Fit o (.node k cs)) (hg : g ∈ cs) : Fit o g :=
  ⟨derivedL_iff.mp h.derived.2.2 g hg, shapedL_mem h.shaped.2 hg, fun kc hk => h.nodes kc (nodes_child hg hk),
    fun kt hk => h.toks kt (toks_child hg hk)⟩

theorem linesEnd_suffix {a b : List Green} (h : LinesEnd (a ++ b)) : LinesEnd b := by
  induction a with
  | nil => exact h
  | cons g a ih => exact ih (linesEnd_cons.mp h).2

theorem fmtKids_map (before : List Green) (cs : List Green) : (fmtKids o before cs).map (·.g) = cs := by
  induction cs generalizing before with
  | nil => rfl
  | cons g cs ih => simp [fmtKids, ih]

theorem allowed_root {k : Kind} : Kind.ROOT ∉ allowed k := by
  cases k <;> simp [allowed, form, junk, instrKinds, fieldKinds]

/-- The kinds whose nodes hold no white space. -/
theorem signif_whole {k : Kind} {cs : List Green} (h : NodeOk k cs)
    (hk : ((allowed k).all fun k' => !triviaKinds.contains k') = true) : signif cs = cs := by
  unfold signif
  refine List.filter_eq_self.mpr fun g hg => ?_
  have := List.all_eq_true.mp hk _ (h.1 g hg)
  cases g with
  | node _ _ => rfl
  | tok k t =>
    simp only [Green.kind, triviaKinds] at this
    cases k <;> first | rfl | simp at this

/-- The document of a node prints the tokens of the children. -/
theorem node_done {k : Kind} {cs before : List Green} {ss : List Spot} (hlb : IsLineBreak lb) (hk : Kids lb cs ss)
    (hn : NoDirective o before ss) (hl : ¬ Lossy k cs) (hp : Prod k cs) (hno : NodeOk k cs) (hr : k ≠ .ROOT) :
    Done lb ss (fmtNode o before k ss) := by
  cases k
  case ROOT => exact absurd rfl hr
  case MODULE_NAME =>
    prods hp
    exact done_text hlb hk hp (signif_whole hno (by decide)) (by decide)
  case NAME =>
    prods hp
    exact done_text hlb hk hp (signif_whole hno (by decide)) (by decide)
  case VAL_TYPE =>
    prods hp
    exact done_text hlb hk hp (signif_whole hno (by decide)) (by decide)
  case INDEX =>
    prods hp
    exact done_text hlb hk hp (signif_whole hno (by decide)) (by decide)
  case FUNC_TYPE => exact done_funcType hlb hk hp
  case PARAM => exact done_param hlb hk hp
  case RESULT => exact done_result hlb hk hp
  case TABLE_TYPE => exact done_tableType hlb hk hp
  case MEMORY_TYPE => exact done_memoryType hlb hk hp
  case GLOBAL_TYPE => exact done_globalType hlb hk hp
  case BLOCK_TYPE => exact done_blockType hlb hk hp
  case PLAIN_INSTR => exact done_plainInstr hlb hk hp
  case BLOCK_BLOCK => exact done_blockLike hlb hk (.inl ⟨rfl, rfl⟩) hp hl
  case BLOCK_LOOP => exact done_blockLike hlb hk (.inr ⟨rfl, rfl⟩) hp hl
  case BLOCK_IF => exact done_blockIf hlb hk hp hl
  case BLOCK_IF_THEN => exact done_then hlb hk hp
  case BLOCK_IF_ELSE => exact done_else hlb hk hp
  case OPERAND => exact done_operand hlb hk hp (signif_whole hno (by decide))
  case TYPE_USE => exact done_typeUse hlb hk hp
  case LIMITS => exact done_limits hlb hk hp (fun t ht => hl ⟨t, ht⟩)
  case IMPORT => exact done_import hlb hk hp
  case EXPORT => exact done_export hlb hk hp
  case IMPORT_DESC_TYPE_USE => exact done_namedTypeUse hlb hk hp
  case IMPORT_DESC_TABLE_TYPE => exact done_namedTableType hlb hk hp
  case IMPORT_DESC_MEMORY_TYPE => exact done_namedMemoryType hlb hk hp
  case IMPORT_DESC_GLOBAL_TYPE => exact done_namedGlobalType hlb hk hp
  case EXPORT_DESC_FUNC => exact done_exportDescFunc hlb hk hp
  case EXPORT_DESC_TABLE => exact done_exportDescTable hlb hk hp
  case EXPORT_DESC_MEMORY => exact done_exportDescMemory hlb hk hp
  case EXPORT_DESC_GLOBAL => exact done_exportDescGlobal hlb hk hp
  case LOCAL => exact done_local hlb hk hp
  case MEM_USE => exact done_useMemUse hlb hk hp
  case OFFSET => exact done_offset hlb hk hp
  case ELEM => exact done_elem hlb hk hp
  case ELEM_LIST => exact done_elemList hlb hk hp
  case ELEM_EXPR => exact done_elemExpr hlb hk hp
  case TABLE_USE => exact done_useTableUse hlb hk hp
  case DATA => exact done_data hlb hk hp
  case MODULE => exact done_module hlb hk hn hp
  case MODULE_FIELD_DATA => exact done_fieldData hlb hk hp
  case MODULE_FIELD_ELEM => exact done_fieldElem hlb hk hp
  case MODULE_FIELD_EXPORT => exact done_fieldExport hlb hk hp
  case MODULE_FIELD_FUNC => exact done_fieldFunc hlb hk hp hl
  case MODULE_FIELD_GLOBAL => exact done_fieldGlobal hlb hk hp
  case MODULE_FIELD_IMPORT => exact done_fieldImport hlb hk hp
  case MODULE_FIELD_MEMORY => exact done_fieldMemory hlb hk hp
  case MODULE_FIELD_START => exact done_useStart hlb hk hp
  case MODULE_FIELD_TABLE => exact done_fieldTable hlb hk hp
  case MODULE_FIELD_TYPE => exact done_namedFieldType hlb hk hp
  all_goals (obtain ⟨_, h, _⟩ := hp; simp [productions] at h)

theorem node_soft {k : Kind} {cs before : List Green} {ss : List Spot} (hlb : IsLineBreak lb) (hk : Kids lb cs ss)
    (hp : Prod k cs) (h : SoftNode (.node k cs) = true) {out : Text} (ho : Prints lb (fmtNode o before k ss) out) :
    Soft out := by
  simp only [SoftNode, Green.isNodeOf, Bool.or_eq_true, Bool.and_eq_true, beq_iff_eq, Bool.not_eq_true'] at h
  rcases h with ((rfl | rfl) | ⟨rfl | rfl, h⟩) | ⟨rfl, h⟩
  · exact soft_param hlb hk hp ho
  · exact soft_result hlb hk hp ho
  · prods hp
    exact soft_expr hlb hk hp h ho
  · prods hp
    exact soft_expr hlb hk hp h ho
  · exact soft_then hlb hk hp h ho

mutual
/-- The document of an element prints the tokens of the element, and begins softly where it has to. -/
theorem doc_tx (hlb : IsLineBreak lb) : ∀ (g : Green) (before : List Green), Fit o g → g.kind ≠ .ROOT → NoDir o before →
    (isBlank g = false → ∀ out, Prints lb (fmtDoc o before g) out → Tx (lexemes g) out) ∧
    (SoftNode g = true → ∀ out, Prints lb (fmtDoc o before g) out → Soft out)
  | .tok k t, before, hf, _, _ => by
    refine ⟨fun hb out ho => ?_, fun h => by simp [SoftNode, Green.isNodeOf] at h⟩
    have hk := hf.toks (k, t) (by simp [Green.toks])
    simp only [fmtDoc, Prints] at ho
    subst ho
    rw [lexemes_tok hb]
    exact tok_tx hk.1 hb hk.2.1 hk.2.2.1
  | .node k cs, before, hf, hr, hd => by
    have hspots := kids_ok hlb cs [] (fun g hg => ⟨hf.child hg, fun he => allowed_root (he ▸ hf.shaped.1.1 g hg)⟩)
      hf.derived.2.1.1 (by intro t ht; cases ht)
    have hk : Kids lb cs (fmtKids o [] cs) := ⟨fmtKids_map [] cs, fun s hs => (hspots s hs).1⟩
    have hn : NoDirective o before (fmtKids o [] cs) := fun s hs => ignore_false (hspots s hs).2 hd
    have hl : ¬ Lossy k cs := hf.nodes (k, cs) (by simp [Green.nodes])
    have hp : Prod k cs := hf.derived.1
    have hno := hf.shaped.1
    have hw : lexemes (.node k cs) = sigWords (fmtKids o [] cs) := by rw [sigWords_eq, fmtKids_map, lexemes_node]
    rw [hw]
    exact ⟨fun _ out ho => node_done hlb hk hn hl hp hno hr out ho, fun h out ho => node_soft hlb hk hp h ho⟩

theorem kids_ok (hlb : IsLineBreak lb) : ∀ (cs : List Green) (before : List Green),
    (∀ g ∈ cs, Fit o g ∧ g.kind ≠ .ROOT) → LinesEnd cs → NoDir o before →
    ∀ s ∈ fmtKids o before cs, SpotOk lb s ∧ NoDir o s.before
  | [], _, _, _, _ => by intro s hs; simp [fmtKids] at hs
  | g :: cs, before, hf, hl, hd => by
    intro s hs
    simp only [fmtKids, List.mem_cons] at hs
    rcases hs with rfl | hs
    · have hg := hf g (.head _)
      have := doc_tx hlb g before hg.1 hg.2 hd
      refine ⟨⟨(linesEnd_cons.mp hl).2, ?_, ?_, ?_, this.1, this.2⟩, hd⟩
      · intro k t hm
        have := (hf _ (.tail _ hm)).1.toks (k, t) (by simp [Green.toks])
        exact ⟨this.1, this.2.1⟩
      · intro k t he
        simp only at he
        subst he
        exact (hg.1.toks (k, t) (by simp [Green.toks])).1
      · intro k t he
        simp only at he
        subst he
        rfl
    · refine kids_ok hlb cs (g :: before) (fun g hg => hf g (.tail _ hg)) (linesEnd_cons.mp hl).2 ?_ s hs
      intro t ht
      rcases List.mem_cons.mp ht with rfl | ht
      · have := ((hf _ (.head _)).1.toks (.LINE_COMMENT, t) (by simp [Green.toks])).2.2.2 rfl
        cases h : isDirective o t with
        | false => rfl
        | true => exact absurd (isDirective_names h) this
      · exact hd t ht
end

end Verif
