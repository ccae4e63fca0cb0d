import Verif.Lemmas.FormatMarkRoot
import Verif.Lemmas.Reparse
import Verif.Lemmas.SwapTree
/-!
Helper lemmas for C64: the document of a tree without comments and blank lines depends only on the tree without its white space.
-/
namespace Verif.Calm
open Verif Spec

variable {o : FmtOpts} {ss : List Spot} {p : Pr} {k : Kind} {w : Text} {sep : Doc} {seps : List Doc}

/-- Nothing is printed for what comes after the child. -/
def Q (o : FmtOpts) (s : Spot) : Prop := afterNode o s.after = [] ∧ afterToken o s.after = []

/-- The child without white space in it, and without its siblings. -/
def canonSpot (s : Spot) : Spot := ⟨strip s.g, s.d, [], []⟩

/-- The children other than white space. -/
def canon (ss : List Spot) : List Spot := (sig ss).map canonSpot

theorem strip_isTokOf (g : Green) : (strip g).isTokOf k = g.isTokOf k := by cases g <;> rfl
theorem strip_isNodeOf (g : Green) : (strip g).isNodeOf k = g.isNodeOf k := by cases g <;> rfl
theorem strip_isInstr (g : Green) : (strip g).isInstr = g.isInstr := by simp [Green.isInstr, strip_isNodeOf]
theorem strip_isField (g : Green) : (strip g).isField = g.isField := by simp [Green.isField, strip_isNodeOf]
theorem strip_isExportDesc (g : Green) : (strip g).isExportDesc = g.isExportDesc := by simp [Green.isExportDesc, strip_isNodeOf]
theorem strip_isImportDesc (g : Green) : (strip g).isImportDesc = g.isImportDesc := by simp [Green.isImportDesc, strip_isNodeOf]

theorem any_stripL {f : Green → Bool} (h1 : ∀ g, isBlank g = true → f g = false) (h2 : ∀ g, f (strip g) = f g) :
    ∀ l : List Green, (stripL l).any f = l.any f
  | [] => rfl
  | g :: l => by
    simp only [stripL]
    split
    · rename_i h
      rw [any_stripL h1 h2 l, List.any_cons, h1 g h, Bool.false_or]
    · rw [List.any_cons, List.any_cons, h2, any_stripL h1 h2 l]

theorem blank_tok {g : Green} (hk : isBlank (.tok k []) = false) (h : isBlank g = true) : g.isTokOf k = false := by
  cases g with
  | node _ _ => rfl
  | tok k' t =>
    cases hc : Green.isTokOf k (.tok k' t) with
    | false => rfl
    | true =>
      simp only [Green.isTokOf, beq_iff_eq] at hc
      subst hc
      revert hk h
      cases k' <;> simp [isBlank]

theorem blank_node {g : Green} (h : isBlank g = true) : g.isNodeOf k = false := by
  cases g with
  | node _ _ => simp [isBlank] at h
  | tok _ _ => rfl

theorem strip_hasTok (hk : isBlank (.tok k []) = false) (g : Green) : (strip g).hasTok k = g.hasTok k := by
  cases g with
  | tok _ _ => rfl
  | node k' cs => exact any_stripL (fun g h => blank_tok hk h) (fun g => strip_isTokOf g) cs

theorem strip_hasInstr (g : Green) : (strip g).hasInstr = g.hasInstr := by
  cases g with
  | tok _ _ => rfl
  | node k' cs =>
    exact any_stripL (fun g h => by simp [Green.isInstr, blank_node h]) (fun g => strip_isInstr g) cs

/-! ### Selecting -/

theorem find_canon {f : Green → Bool} (h1 : ∀ g, isBlank g = true → f g = false) (h2 : ∀ g, f (strip g) = f g) :
    ((canon ss).find? fun s => f s.g) = (ss.find? fun s => f s.g).map canonSpot := by
  unfold canon sig
  induction ss with
  | nil => rfl
  | cons s ss ih =>
    rw [List.filter_cons, List.find?_cons]
    cases hb : isBlank s.g with
    | true => simp [h1 _ hb, ih]
    | false =>
      simp only [Bool.not_false, if_true, List.map_cons, List.find?_cons]
      rw [show (canonSpot s).g = strip s.g from rfl, h2]
      cases f s.g <;> simp [ih]

theorem filter_canon {f : Green → Bool} (h1 : ∀ g, isBlank g = true → f g = false) (h2 : ∀ g, f (strip g) = f g) :
    ((canon ss).filter fun s => f s.g) = (ss.filter fun s => f s.g).map canonSpot := by
  unfold canon sig
  induction ss with
  | nil => rfl
  | cons s ss ih =>
    rw [List.filter_cons]
    cases hb : isBlank s.g with
    | true => simp [h1 _ hb, ih, List.filter_cons]
    | false =>
      simp only [Bool.not_false, if_true, List.map_cons, List.filter_cons]
      rw [show (canonSpot s).g = strip s.g from rfl, h2]
      cases f s.g <;> simp [ih]

theorem tokSpot_canon (hk : isBlank (.tok k []) = false) : tokSpot k (canon ss) = (tokSpot k ss).map canonSpot :=
  find_canon (fun _ h => blank_tok hk h) fun g => strip_isTokOf g
theorem tokSpots_canon (hk : isBlank (.tok k []) = false) : tokSpots k (canon ss) = (tokSpots k ss).map canonSpot :=
  filter_canon (fun _ h => blank_tok hk h) fun g => strip_isTokOf g
theorem nodeSpot_canon : nodeSpot k (canon ss) = (nodeSpot k ss).map canonSpot :=
  find_canon (fun _ h => blank_node h) fun g => strip_isNodeOf g
theorem nodeSpots_canon : nodeSpots k (canon ss) = (nodeSpots k ss).map canonSpot :=
  filter_canon (fun _ h => blank_node h) fun g => strip_isNodeOf g
theorem instrSpots_canon : instrSpots (canon ss) = (instrSpots ss).map canonSpot :=
  filter_canon (fun _ h => by simp [Green.isInstr, blank_node h]) strip_isInstr
theorem fields_canon : ((canon ss).filter fun s => s.g.isField) = (ss.filter fun s => s.g.isField).map canonSpot :=
  filter_canon (fun _ h => by simp [Green.isField, blank_node h]) strip_isField
theorem exportDesc_canon : ((canon ss).find? fun s => s.g.isExportDesc) = (ss.find? fun s => s.g.isExportDesc).map canonSpot :=
  find_canon (fun _ h => by simp [Green.isExportDesc, blank_node h]) strip_isExportDesc
theorem importDesc_canon : ((canon ss).find? fun s => s.g.isImportDesc) = (ss.find? fun s => s.g.isImportDesc).map canonSpot :=
  find_canon (fun _ h => by simp [Green.isImportDesc, blank_node h]) strip_isImportDesc
theorem wordSpot_canon : wordSpot w (canon ss) = (wordSpot w ss).map canonSpot := by
  refine find_canon (f := fun g => g.isTokOf .KEYWORD && g.text == w) (fun g h => ?_) (fun g => ?_)
  · rw [blank_tok rfl h]; rfl
  · cases g <;> rfl

/-! ### Steps -/

/-- The selected child is one of the children. -/
def From (ss : List Spot) (x : Option Spot) : Prop := ∀ s, x = some s → s ∈ ss

theorem from_tok : From ss (tokSpot k ss) := fun _ h => List.mem_of_find?_eq_some h
theorem from_node : From ss (nodeSpot k ss) := fun _ h => List.mem_of_find?_eq_some h
theorem from_word : From ss (wordSpot w ss) := fun _ h => List.mem_of_find?_eq_some h

/-- The child is a token. -/
def IsTok (x : Option Spot) : Prop := ∀ s, x = some s → ∃ k t, s.g = .tok k t

theorem isTok_tok : IsTok (tokSpot k ss) := fun s h => by
  have := List.find?_some h
  cases hg : s.g with
  | tok k t => exact ⟨k, t, rfl⟩
  | node _ _ => rw [hg] at this; cases this

theorem isTok_get {n : Nat} : IsTok (tokSpots k ss)[n]? := fun s h => by
  have := (List.mem_filter.mp (List.mem_of_getElem? h)).2
  cases hg : s.g with
  | tok k t => exact ⟨k, t, rfl⟩
  | node _ _ => rw [hg] at this; cases this

theorem from_get {n : Nat} : From ss (tokSpots k ss)[n]? := fun _ h => (List.mem_filter.mp (List.mem_of_getElem? h)).1

theorem afterT_nil : afterToken o [] = [] := rfl
theorem afterN_nil : afterNode o [] = [] := rfl

section
variable (hq : ∀ s ∈ ss, Q o s)
include hq

theorem lparen_canon : Pr.lparen o (canon ss) p = Pr.lparen o ss p := by
  unfold Pr.lparen
  rw [tokSpot_canon rfl]
  cases h : tokSpot .L_PAREN ss with
  | none => rfl
  | some s => simp [canonSpot, afterT_nil, (hq s (from_tok s h)).2]

theorem rparen_canon : Pr.rparen? o (canon ss) p = Pr.rparen? o ss p := by
  unfold Pr.rparen?
  rw [tokSpot_canon rfl]
  cases h : tokSpot .R_PAREN ss with
  | none => rfl
  | some s => simp [canonSpot, afterT_nil, (hq s (from_tok s h)).2]

theorem kw_canon : Pr.kw o (canon ss) w p = Pr.kw o ss w p := by
  unfold Pr.kw Pr.word
  rw [tokSpot_canon rfl]
  cases h : tokSpot .KEYWORD ss with
  | none => rfl
  | some s => simp [canonSpot, afterT_nil, (hq s (from_tok s h)).2]

theorem tok_canon {x : Option Spot} (hf : From ss x) (ht : IsTok x) : Pr.tok? o sep (x.map canonSpot) p = Pr.tok? o sep x p := by
  cases h : x with
  | none => rfl
  | some s =>
    obtain ⟨k, t, hg⟩ := ht s h
    simp [Pr.tok?, Pr.tok, Pr.tokAs, canonSpot, afterT_nil, (hq s (hf s h)).2, hg, strip]

theorem tokAs_canon {x : Option Spot} (hf : From ss x) : Pr.tokAs? o sep w (x.map canonSpot) p = Pr.tokAs? o sep w x p := by
  cases h : x with
  | none => rfl
  | some s => simp [Pr.tokAs?, Pr.tokAs, canonSpot, afterT_nil, (hq s (hf s h)).2]

theorem min_canon {x : Option Spot} (hf : From ss x) (ht : IsTok x) : fmtMin o (x.map canonSpot) p = fmtMin o x p := by
  cases h : x with
  | none => rfl
  | some s =>
    obtain ⟨k, t, hg⟩ := ht s h
    simp [fmtMin, canonSpot, afterT_nil, (hq s (hf s h)).2, hg, strip]

theorem name_canon {x : Option Spot} (hf : From ss x) (ht : IsTok x) : fmtInstrName o (x.map canonSpot) p = fmtInstrName o x p := by
  cases h : x with
  | none => rfl
  | some s =>
    obtain ⟨k, t, hg⟩ := ht s h
    simp [fmtInstrName, canonSpot, afterT_nil, (hq s (hf s h)).2, hg, strip]

theorem ref_canon {x : Option Spot} (hf : From ss x) (ht : IsTok x) : fmtRefType o (x.map canonSpot) p = fmtRefType o x p := by
  cases h : x with
  | none => rfl
  | some s =>
    obtain ⟨k, t, hg⟩ := ht s h
    simp [fmtRefType, canonSpot, afterT_nil, (hq s (hf s h)).2, hg, strip]

theorem part_canon {x : Option Spot} (hf : From ss x) : Pr.part? o seps (x.map canonSpot) p = Pr.part? o seps x p := by
  cases h : x with
  | none => rfl
  | some s => simp [Pr.part?, Pr.part, canonSpot, afterN_nil, (hq s (hf s h)).1]

theorem head_canon {x : Option Spot} (hf : From ss x) : fmtHead o (x.map canonSpot) p = fmtHead o x p := by
  cases h : x with
  | none => rfl
  | some s => simp [fmtHead, canonSpot, afterN_nil, (hq s (hf s h)).1]

theorem then_canon {x : Option Spot} (hf : From ss x) : fmtThen o (x.map canonSpot) p = fmtThen o x p := by
  cases h : x with
  | none => rfl
  | some s => simp [fmtThen, canonSpot, afterN_nil, (hq s (hf s h)).1, strip_hasTok (k := .L_PAREN) rfl]

theorem own_canon {x : Option Spot} (hf : From ss x) : Pr.own? o (x.map canonSpot) p = Pr.own? o x p := by
  cases h : x with
  | none => rfl
  | some s => simp [Pr.own?, Pr.own, canonSpot, afterN_nil, (hq s (hf s h)).1, strip_hasTok (k := .KEYWORD) rfl]

theorem funcTypeUse_canon {x : Option Spot} (hf : From ss x) : fmtFuncTypeUse o (x.map canonSpot) p = fmtFuncTypeUse o x p := by
  cases h : x with
  | none => rfl
  | some s => simp [fmtFuncTypeUse, Pr.part, canonSpot, afterN_nil, (hq s (hf s h)).1, strip_hasTok (k := .KEYWORD) rfl]

/-! Steps for several children. -/

theorem fold_canon {F : Pr → Spot → Pr} {l : List Spot} (hl : ∀ s ∈ l, s ∈ ss)
    (hF : ∀ p s, s ∈ l → Q o s → F p (canonSpot s) = F p s) : ∀ p, (l.map canonSpot).foldl F p = l.foldl F p := by
  induction l with
  | nil => intro p; rfl
  | cons s l ih =>
    intro p
    rw [List.map_cons, List.foldl_cons, List.foldl_cons, hF p s (.head _) (hq s (hl s (.head _)))]
    exact ih (fun s hs => hl s (.tail _ hs)) (fun p s hs => hF p s (.tail _ hs)) _

theorem parts_canon {l : List Spot} (hl : ∀ s ∈ l, s ∈ ss) : Pr.parts o seps (l.map canonSpot) p = Pr.parts o seps l p :=
  fold_canon hq hl (fun p s _ h => by simp [Pr.part, canonSpot, afterN_nil, h.1]) p

theorem toks_canon : Pr.toks o sep ((tokSpots k ss).map canonSpot) p = Pr.toks o sep (tokSpots k ss) p :=
  fold_canon hq (fun s hs => (List.mem_filter.mp hs).1) (fun p s hs h => by
    have := (List.mem_filter.mp hs).2
    cases hg : s.g with
    | tok k t => simp [Pr.tok, Pr.tokAs, canonSpot, afterT_nil, h.2, hg, strip]
    | node _ _ => rw [hg] at this; cases this) p

theorem owns_canon {l : List Spot} (hl : ∀ s ∈ l, s ∈ ss) : Pr.owns o (l.map canonSpot) p = Pr.owns o l p :=
  fold_canon hq hl (fun p s _ h => by simp [Pr.own, canonSpot, afterN_nil, h.1, strip_hasTok (k := .KEYWORD) rfl]) p

theorem operands_canon {l : List Spot} (hl : ∀ s ∈ l, s ∈ ss) : fmtOperands o (l.map canonSpot) p = fmtOperands o l p :=
  fold_canon hq hl (fun p s _ h => by simp [Pr.part, canonSpot, afterN_nil, h.1, strip_hasInstr]) p

theorem indexes_canon {l : List Spot} (hl : ∀ s ∈ l, s ∈ ss) : fmtIndexes o (l.map canonSpot) p = fmtIndexes o l p :=
  fold_canon hq hl (fun p s _ h => by simp [Pr.part, canonSpot, afterN_nil, h.1]) p

theorem nested_canon {l : List Spot} (hl : ∀ s ∈ l, s ∈ ss) : Pr.nested o (l.map canonSpot) p = Pr.nested o l p := by
  unfold Pr.nested; rw [parts_canon hq hl]

theorem firstParts_canon {l : List Spot} (hl : ∀ s ∈ l, s ∈ ss) : Pr.firstParts o seps (l.map canonSpot) p = Pr.firstParts o seps l p := by
  cases l with
  | nil => rfl
  | cons s l =>
    simp only [List.map_cons, Pr.firstParts]
    rw [parts_canon hq (fun s hs => hl s (.tail _ hs))]
    simp [Pr.part, canonSpot, afterN_nil, (hq s (hl s (.head _))).1]

theorem useParts_canon {lp : Bool} {l : List Spot} (hl : ∀ s ∈ l, s ∈ ss) :
    fmtUseParts o sep lp (l.map canonSpot) p = fmtUseParts o sep lp l p := by
  cases l with
  | nil => rfl
  | cons s l =>
    simp only [List.map_cons, fmtUseParts]
    rw [parts_canon hq (fun s hs => hl s (.tail _ hs))]
    simp [fmtUseFirst, canonSpot, afterN_nil, (hq s (hl s (.head _))).1]

theorem fmtFields_canon {l : List Spot} {before before' : List Green} (hl : ∀ s ∈ l, s ∈ ss) (h1 : ∀ s ∈ ss, NoDir o s.before)
    (h2 : NoDir o before) (h3 : NoDir o before') : fmtFields o before' (l.map canonSpot) p = fmtFields o before l p := by
  have e0 : NoDir o [] := by intro t ht; cases ht
  have e1 : fmtFields o before l p = fmtFields o before' l p := by
    have : ∀ (l : List Spot) p, (∀ s ∈ l, s ∈ ss) → fmtFields o before l p = fmtFields o before' l p := by
      intro l
      induction l with
      | nil => intro p _; rfl
      | cons s l ih =>
        intro p hl
        simp only [fmtFields, List.foldl_cons] at ih ⊢
        rw [ignore_false (h1 s (hl s (.head _))) h2, ignore_false (h1 s (hl s (.head _))) h3]
        exact ih _ fun s hs => hl s (.tail _ hs)
    exact this l p hl
  rw [e1]
  exact fold_canon hq hl (fun p s hs h => by
    simp [canonSpot, afterN_nil, h.1, ignore_false e0 h3, ignore_false (h1 s (hl s hs)) h3]) p

end

theorem nodes_mem : ∀ s ∈ nodeSpots k ss, s ∈ ss := fun _ h => (List.mem_filter.mp h).1
theorem instrs_mem : ∀ s ∈ instrSpots ss, s ∈ ss := fun _ h => (List.mem_filter.mp h).1

theorem get_canon {l : List Spot} {n : Nat} : (l.map canonSpot)[n]? = l[n]?.map canonSpot := by simp

/-- The kinds printed as their text. -/
def textKinds : List Kind := [.MODULE_NAME, .NAME, .VAL_TYPE, .INDEX, .OPERAND]

/-- The document of a node depends only on the children that are not white space. -/
theorem node_canon (hq : ∀ s ∈ ss, Q o s) {before before' : List Green} (h1 : ∀ s ∈ ss, NoDir o s.before) (h2 : NoDir o before)
    (h3 : NoDir o before') (hr : k ≠ .ROOT) (ht : textKinds.contains k = false) :
    fmtNode o before' k (canon ss) = fmtNode o before k ss := by
  cases k
  all_goals first
    | rfl
    | (exact absurd rfl hr)
    | (exact absurd ht (by decide))
    | (simp only [fmtNode, fmtFuncType, fmtGlobalType, fmtLimits, fmtMemoryType, fmtParam, fmtResult, fmtTableType, fmtBlockLike,
        fmtBlockIf, fmtBranch, fmtBlockType, fmtPlainInstr, fmtData, fmtElem, fmtExpr, fmtElemList, fmtExport, fmtExportDesc, fmtImport,
        fmtNamed, fmtLocal, fmtUse, fmtModule, fmtFieldData, fmtFieldElem, fmtFieldExport, fmtFieldFunc, fmtFieldGlobal, fmtFieldImport,
        fmtFieldMemory, fmtFieldTable, fmtTypeUse,
        lparen_canon hq, rparen_canon hq, kw_canon hq, tokSpot_canon (k := .IDENT) rfl, tokSpot_canon (k := .L_PAREN) rfl,
        tokSpot_canon (k := .REF_TYPE) rfl, tokSpot_canon (k := .UNSIGNED_INT) rfl, tokSpots_canon (k := .UNSIGNED_INT) rfl,
        tokSpots_canon (k := .IDENT) rfl, tokSpots_canon (k := .STRING) rfl, tokSpot_canon (k := .INSTR_NAME) rfl,
        tokSpot_canon (k := .KEYWORD) rfl,
        nodeSpot_canon, nodeSpots_canon, instrSpots_canon, fields_canon, exportDesc_canon, importDesc_canon, wordSpot_canon, get_canon,
        tok_canon hq from_tok isTok_tok, tok_canon hq from_get isTok_get, tokAs_canon hq from_word, min_canon hq from_tok isTok_tok,
        name_canon hq from_tok isTok_tok, ref_canon hq from_tok isTok_tok, part_canon hq from_node, head_canon hq from_node,
        then_canon hq from_node, own_canon hq from_node, funcTypeUse_canon hq from_node, parts_canon hq nodes_mem,
        parts_canon hq instrs_mem, toks_canon hq, owns_canon hq nodes_mem, operands_canon hq nodes_mem, indexes_canon hq nodes_mem,
        nested_canon hq instrs_mem, firstParts_canon hq nodes_mem, useParts_canon hq nodes_mem,
        part_canon hq (x := ss.find? fun s => s.g.isExportDesc) (fun _ h => List.mem_of_find?_eq_some h),
        part_canon hq (x := ss.find? fun s => s.g.isImportDesc) (fun _ h => List.mem_of_find?_eq_some h), Option.isSome_map,
        fmtFields_canon hq (l := ss.filter fun s => s.g.isField) (fun _ h => (List.mem_filter.mp h).1) h1 h2 h3]; done)
    | skip
  case MEMORY_TYPE =>
    simp only [fmtNode, fmtMemoryType, nodeSpot_canon]
    cases nodeSpot .LIMITS ss <;> rfl
  case GLOBAL_TYPE =>
    simp only [fmtNode, fmtGlobalType, nodeSpot_canon, tokSpot_canon (k := .L_PAREN) rfl, lparen_canon hq, kw_canon hq,
      part_canon hq from_node]
    cases tokSpot .L_PAREN ss <;> cases nodeSpot .VAL_TYPE ss <;> rfl
  case BLOCK_TYPE =>
    simp only [fmtNode, fmtBlockType, nodeSpot_canon]
    cases nodeSpot .RESULT ss <;> cases nodeSpot .TYPE_USE ss <;> rfl
  case BLOCK_IF =>
    simp only [fmtNode, fmtBlockIf, nodeSpot_canon, tokSpot_canon (k := .L_PAREN) rfl, tokSpot_canon (k := .IDENT) rfl, lparen_canon hq,
      kw_canon hq, part_canon hq from_node, instrSpots_canon, parts_canon hq instrs_mem, then_canon hq from_node,
      tok_canon hq from_tok isTok_tok, wordSpot_canon, tokAs_canon hq from_word, rparen_canon hq, tokSpots_canon (k := .IDENT) rfl,
      get_canon, tok_canon hq from_get isTok_get]
    cases tokSpot .L_PAREN ss <;> rfl

/-! ### The tree -/

/-- A token that is not a comment, not an error, and not white space with an empty line. -/
def QuietTok (kt : Kind × Text) : Prop :=
  kt.1 ≠ .LINE_COMMENT ∧ kt.1 ≠ .BLOCK_COMMENT ∧ kt.1 ≠ .ERROR ∧ (kt.1 = .WHITESPACE → newlineCount kt.2 < 2)

def Quiet (g : Green) : Prop := ∀ kt ∈ g.toks, QuietTok kt

theorem Quiet.child {cs : List Green} {g : Green} (h : Quiet (.node k cs)) (hg : g ∈ cs) : Quiet g := fun kt hkt =>
  h kt (toks_child hg hkt)

theorem triviaAfter_quiet : ∀ {l : List Green}, (∀ g ∈ l, Quiet g) →
    ∀ x ∈ triviaAfter l, x.1 = .WHITESPACE ∧ newlineCount x.2 < 2
  | [], _, x, hx => by simp [triviaAfter] at hx
  | g :: l, h, x, hx => by
    unfold triviaAfter at hx
    split at hx
    · rename_i y hy
      rcases List.mem_cons.mp hx with rfl | hx
      · cases g with
        | node _ _ => simp [fmtTrivia] at hy
        | tok k t =>
          have hq := h _ (.head _) (k, t) (by simp [Green.toks])
          simp only [fmtTrivia] at hy
          split at hy
          · rename_i hc
            cases hy
            simp only [Bool.or_eq_true, beq_iff_eq] at hc
            obtain ⟨q1, q2, q3, q4⟩ := hq
            rcases hc with ((hc | hc) | hc) | hc
            · exact absurd hc q1
            · exact absurd hc q2
            · exact ⟨hc, q4 hc⟩
            · exact absurd hc q3
          · cases hy
      · exact triviaAfter_quiet (fun g hg => h g (.tail _ hg)) x hx
    · cases hx

theorem q_of_quiet {s : Spot} (h : ∀ g ∈ s.after, Quiet g) : Q o s := by
  have ht := triviaAfter_quiet h
  constructor
  · unfold afterNode
    rw [if_pos]
    exact List.all_eq_true.mpr fun x hx => by simp [ht x hx]
  · unfold afterToken
    rw [if_pos]
    exact List.all_eq_true.mpr fun x hx => by simp [(ht x ((List.dropWhile_sublist _).mem hx)).1]

theorem kids_after : ∀ (cs before : List Green) (s : Spot), s ∈ fmtKids o before cs → s.g ∈ cs ∧ (∀ g ∈ s.after, g ∈ cs) ∧
    (∀ g ∈ s.before, g ∈ before ∨ g ∈ cs)
  | [], _, _, h => by simp [fmtKids] at h
  | g :: cs, before, s, h => by
    simp only [fmtKids, List.mem_cons] at h
    rcases h with rfl | h
    · exact ⟨.head _, fun g hg => .tail _ hg, fun g hg => .inl hg⟩
    · obtain ⟨h1, h2, h3⟩ := kids_after cs (g :: before) s h
      refine ⟨.tail _ h1, fun g hg => .tail _ (h2 g hg), fun x hx => ?_⟩
      rcases h3 x hx with h | h
      · rcases List.mem_cons.mp h with rfl | h
        · exact .inr (.head _)
        · exact .inl h
      · exact .inr (.tail _ h)

theorem noDir_quiet {l : List Green} (h : ∀ g ∈ l, Quiet g) : NoDir o l := fun t ht =>
  absurd rfl (h _ ht (.LINE_COMMENT, t) (by simp [Green.toks])).1


theorem toks_stripL {l : List Green} {kt : Kind × Text} (h : ∀ g ∈ l, ∀ x ∈ (strip g).toks, x ∈ g.toks) (hk : kt ∈ Green.toksL (stripL l)) :
    kt ∈ Green.toksL l := by
  induction l with
  | nil => exact hk
  | cons g l ih =>
    simp only [stripL] at hk
    simp only [Green.toksL, List.mem_append]
    split at hk
    · exact .inr (ih (fun g hg => h g (.tail _ hg)) hk)
    · simp only [Green.toksL, List.mem_append] at hk
      rcases hk with hk | hk
      · exact .inl (h g (.head _) _ hk)
      · exact .inr (ih (fun g hg => h g (.tail _ hg)) hk)

theorem toks_strip : ∀ (g : Green) (kt : Kind × Text), kt ∈ (strip g).toks → kt ∈ g.toks
  | .tok k t, kt, h => h
  | .node k cs, kt, h => toks_stripL (fun g hg x hx => toks_strip g x hx) h

theorem quiet_strip {g : Green} (h : Quiet g) : Quiet (strip g) := fun kt hkt => h kt (toks_strip g kt hkt)

theorem mem_stripL {g : Green} : ∀ {l : List Green}, g ∈ stripL l → ∃ x ∈ l, g = strip x
  | [], h => by simp [stripL] at h
  | x :: l, h => by
    simp only [stripL] at h
    split at h
    · obtain ⟨y, h1, h2⟩ := mem_stripL h; exact ⟨y, .tail _ h1, h2⟩
    · rcases List.mem_cons.mp h with rfl | h
      · exact ⟨x, .head _, rfl⟩
      · obtain ⟨y, h1, h2⟩ := mem_stripL h; exact ⟨y, .tail _ h1, h2⟩

mutual
theorem strip_strip : ∀ g : Green, strip (strip g) = strip g
  | .tok _ _ => rfl
  | .node k cs => by simp only [strip]; rw [stripL_stripL cs]
theorem stripL_stripL : ∀ l : List Green, stripL (stripL l) = stripL l
  | [] => rfl
  | g :: l => by
    simp only [stripL]
    split
    · exact stripL_stripL l
    · rename_i h
      have : isBlank (strip g) = false := by
        cases g with
        | tok k t => simpa [strip] using h
        | node _ _ => rfl
      simp only [stripL, this, Bool.false_eq_true, if_false, strip_strip g, stripL_stripL l]
end

theorem noDir_cons {g : Green} {l : List Green} (h : Quiet g) (hl : NoDir o l) : NoDir o (g :: l) := fun t ht => by
  rcases List.mem_cons.mp ht with rfl | ht
  · exact absurd rfl (h (.LINE_COMMENT, t) (by simp [Green.toks])).1
  · exact hl t ht

theorem canon_kids : ∀ (cs b b' : List Green), (∀ g ∈ cs, ∀ b b', NoDir o b → NoDir o b' → isBlank g = false →
    fmtDoc o b' (strip g) = fmtDoc o b g) → (∀ g ∈ cs, Quiet g) → NoDir o b → NoDir o b' →
    canon (fmtKids o b' (stripL cs)) = canon (fmtKids o b cs)
  | [], _, _, _, _, _, _ => rfl
  | g :: cs, b, b', h, hq, hb, hb' => by
    have hb2 : NoDir o (g :: b) := noDir_cons (hq _ (.head _)) hb
    simp only [stripL]
    split
    · rename_i hg
      rw [canon_kids cs (g :: b) b' (fun g hg => h g (.tail _ hg)) (fun g hg => hq g (.tail _ hg)) hb2 hb']
      simp [fmtKids, canon, sig, List.filter_cons, hg]
    · rename_i hg
      have hg' : isBlank (strip g) = false := by
        cases g with
        | tok k t => simpa [strip] using hg
        | node _ _ => rfl
      have := canon_kids cs (g :: b) (strip g :: b') (fun g hg => h g (.tail _ hg)) (fun g hg => hq g (.tail _ hg)) hb2 (noDir_cons (quiet_strip (hq _ (.head _))) hb')
      have e := h g (.head _) b b' hb hb' (by simpa using hg)
      simp only [canon, sig] at this
      have hg2 : isBlank g = false := by simpa using hg
      simp only [fmtKids, canon, sig, List.filter_cons, hg', hg2, Bool.not_false, if_true, List.map_cons, this, canonSpot, e, strip_strip]

/-- A text of one token. -/
theorem text_only {ts : List Term} {cs : List Green} (hp : Match [.one ts] (signif cs)) (hw : signif cs = cs)
    (ht : (ts.all fun t => match t with | .tok _ => true | _ => false) = true) : ∃ k t, cs = [.tok k t] ∧ isBlank (.tok k t) = false := by
  rw [hw] at hp
  cases hp with
  | one h1 h2 h3 =>
    cases h3
    rename_i t g
    have := List.all_eq_true.mp ht t h1
    cases t with
    | node _ => cases this
    | word _ => cases this
    | tok k =>
      cases g with
      | node _ _ => exact h2.elim
      | tok k' t =>
        refine ⟨k', t, rfl, ?_⟩
        have hm : Green.tok k' t ∈ signif [Green.tok k' t] := by rw [hw]; exact .head _
        simpa using (List.mem_filter.mp hm).2

/-- The tree is a derivation, and its nodes have the shape of their kind. -/
structure Tame (g : Green) : Prop where
  derived : Derived g
  shaped : Shaped g

theorem _root_.Verif.Fit.tame {g : Green} (h : Fit o g) : Tame g := ⟨h.derived, h.shaped⟩

theorem tame_child {cs : List Green} {g : Green} (hf : Tame (.node k cs)) (hg : g ∈ cs) : Tame g ∧ g.kind ≠ .ROOT :=
  ⟨⟨derivedL_iff.mp hf.derived.2.2 g hg, shapedL_mem hf.shaped.2 hg⟩, fun he => allowed_root (he ▸ hf.shaped.1.1 g hg)⟩

theorem operand_canon {cs : List Green} {ss : List Spot} (hs : ss.map (·.g) = cs) (hp : Prod .OPERAND cs) (hw : signif cs = cs) :
    fmtOperand (canon ss) = fmtOperand ss := by
  obtain ⟨q, h1, h2⟩ := hp
  simp only [productions, List.mem_singleton] at h1
  subst h1
  have hbl : ∀ g ∈ cs, isBlank g = false := fun g hg => by
    rw [← hw] at hg; simpa using (List.mem_filter.mp hg).2
  rw [hw] at h2
  unfold fmtOperand
  rw [instrSpots_canon, nodeSpot_canon]
  cases h2 with
  | one h1 h2 h3 =>
    cases h3
    rename_i t g
    cases ss with
    | nil => cases hs
    | cons s ss =>
      cases ss with
      | cons _ _ => simp at hs
      | nil =>
        simp only [List.map_cons, List.map_nil, List.cons.injEq, and_true] at hs
        subst hs
        cases hg : s.g with
        | tok k t =>
          have hb := hbl _ (.head _)
          have e1 : instrSpots [s] = [] := by simp [instrSpots, hg, Green.isInstr, Green.isNodeOf]
          have e2 : nodeSpot .TYPE_USE [s] = none := by simp [nodeSpot, hg, Green.isNodeOf]
          rw [e1, e2]
          rw [hg] at hb
          simp [canon, sig, hg, hb, canonSpot, strip, Green.firstTok]
        | node k c =>
          rw [hg] at h2
          simp only [instrTerms, List.cons_append, List.nil_append, List.mem_cons, List.not_mem_nil, or_false] at h1
          rcases h1 with rfl | rfl | rfl | rfl | rfl | rfl | rfl | rfl | rfl | rfl | rfl
          all_goals first
            | exact h2.elim
            | (cases h2
               first
               | (have e1 : instrSpots [s] = [s] := by simp [instrSpots, hg, Green.isInstr, Green.isNodeOf]
                  rw [e1]; rfl)
               | (have e1 : instrSpots [s] = [] := by simp [instrSpots, hg, Green.isInstr, Green.isNodeOf]
                  have e2 : nodeSpot .TYPE_USE [s] = some s := by simp [nodeSpot, hg, Green.isNodeOf]
                  rw [e1, e2]; rfl))

/-- The document of a quiet tree depends only on the tree without its white space. -/
theorem doc_canon : ∀ (g : Green), Quiet g → Tame g → g.kind ≠ .ROOT → ∀ b b', NoDir o b → NoDir o b' →
    fmtDoc o b' (strip g) = fmtDoc o b g
  | .tok k t, _, _, _, _, _, _, _ => rfl
  | .node k cs, hq, hf, hr, b, b', hb, hb' => by
    have hc := canon_kids (o := o) cs [] [] (fun g hg b b' hb hb' _ =>
      doc_canon g (hq.child hg) (tame_child hf hg).1 (tame_child hf hg).2 b b' hb hb') (fun g hg => hq.child hg)
      (by intro x hx; cases hx) (by intro x hx; cases hx)
    have hn : NoDir o [] := by intro t ht; cases ht
    have q1 : ∀ s ∈ fmtKids o [] cs, Q o s ∧ NoDir o s.before := fun s hs => by
      obtain ⟨_, h2, h3⟩ := kids_after cs [] s hs
      refine ⟨q_of_quiet fun g hg => hq.child (h2 g hg), noDir_quiet fun g hg => ?_⟩
      rcases h3 g hg with h | h
      · cases h
      · exact hq.child h
    have q2 : ∀ s ∈ fmtKids o [] (stripL cs), Q o s ∧ NoDir o s.before := fun s hs => by
      obtain ⟨_, h2, h3⟩ := kids_after _ [] s hs
      have hst : ∀ g ∈ stripL cs, Quiet g := fun g hg => by
        obtain ⟨x, h1, rfl⟩ := mem_stripL hg
        exact quiet_strip (hq.child h1)
      refine ⟨q_of_quiet fun g hg => hst g (h2 g hg), noDir_quiet fun g hg => ?_⟩
      rcases h3 g hg with h | h
      · cases h
      · exact hst g h
    simp only [strip, fmtDoc]
    cases ht : textKinds.contains k with
    | false =>
      rw [← node_canon (fun s hs => (q2 s hs).1) (fun s hs => (q2 s hs).2) (hb') hn (show k ≠ .ROOT from hr) ht, hc,
        node_canon (fun s hs => (q1 s hs).1) (fun s hs => (q1 s hs).2) (hb) hn (show k ≠ .ROOT from hr) ht]
    | true =>
      simp only [textKinds, List.contains_cons, List.contains_nil, Bool.or_false, Bool.or_eq_true, beq_iff_eq] at ht
      have hno := hf.shaped.1
      have hp := hf.derived.1
      have key : ∀ {ts : List Term}, Match [.one ts] (signif cs) → signif cs = cs →
          (ts.all fun t => match t with | .tok _ => true | _ => false) = true →
          fmtText (fmtKids o [] (stripL cs)) = fmtText (fmtKids o [] cs) := by
        intro ts h1 h2 h3
        obtain ⟨k, t, rfl, hb⟩ := text_only h1 h2 h3
        simp [stripL, hb, strip]
      rcases ht with rfl | rfl | rfl | rfl | rfl
      · obtain ⟨q, h1, h2⟩ := hp
        simp only [productions, List.mem_singleton] at h1; subst h1
        exact key h2 (signif_whole hno (by decide)) (by decide)
      · obtain ⟨q, h1, h2⟩ := hp
        simp only [productions, List.mem_singleton] at h1; subst h1
        exact key h2 (signif_whole hno (by decide)) (by decide)
      · obtain ⟨q, h1, h2⟩ := hp
        simp only [productions, List.mem_singleton] at h1; subst h1
        exact key h2 (signif_whole hno (by decide)) (by decide)
      · obtain ⟨q, h1, h2⟩ := hp
        simp only [productions, List.mem_singleton] at h1; subst h1
        exact key h2 (signif_whole hno (by decide)) (by decide)
      · have hw := signif_whole hno (by decide)
        have e1 := operand_canon (ss := fmtKids o [] cs) (fmtKids_map [] cs) hp hw
        have e2 : fmtOperand (canon (fmtKids o [] (stripL cs))) = fmtOperand (fmtKids o [] (stripL cs)) := by
          obtain ⟨q, h1, h2⟩ := hp
          have h1' := h1
          simp only [productions, List.mem_singleton] at h1
          subst h1
          have h3 := h2
          rw [hw] at h3
          cases h3 with
          | one h4 h5 h6 =>
            cases h6
            rename_i t g
            have hb : isBlank g = false := by
              have : g ∈ signif [g] := by rw [hw]; exact .head _
              simpa using (List.mem_filter.mp this).2
            have hb' : isBlank (strip g) = false := by
              cases g with
              | tok k t => simpa [strip] using hb
              | node _ _ => rfl
            have hi : t.is (strip g) := by cases g <;> cases t <;> exact h5
            refine operand_canon (fmtKids_map [] _) ⟨_, h1', ?_⟩ ?_
            · simp only [stripL, hb, Bool.false_eq_true, if_false, signif, List.filter_cons, hb', Bool.not_false, if_true, List.filter_nil]
              exact .one h4 hi .nil
            · simp [stripL, hb, signif, hb']
        exact e2.symm.trans ((congrArg fmtOperand hc).trans e1)
termination_by g => sizeOf g
decreasing_by
  have := List.sizeOf_lt_of_mem hg
  simp only [Green.node.sizeOf_spec]
  omega

end Verif.Calm
