import Verif.Model.Completion
import Verif.Spec.Complete
import Verif.Lemmas.Denote
import Verif.Lemmas.Distinct
import Verif.Lemmas.Outline
import Verif.Lemmas.CallSites
import Verif.Lemmas.Declare
import Verif.Lemmas.Render
/-!
Helper lemmas: the symbols of a scope as lists, and what completion offers.
-/
namespace Verif
open Spec

variable {g : Green}

/-- Two lists in the same strict order with the same members are equal. -/
theorem sorted_ext {α : Type} {R : α → α → Prop} (irr : ∀ a, ¬ R a a) (asym : ∀ a b, R a b → ¬ R b a) :
    ∀ {l m : List α}, l.Pairwise R → m.Pairwise R → (∀ a, a ∈ l ↔ a ∈ m) → l = m
  | [], [], _, _, _ => rfl
  | [], b :: m, _, _, h => absurd ((h b).mpr (by simp)) (by simp)
  | a :: l, [], _, _, h => absurd ((h a).mp (by simp)) (by simp)
  | a :: l, b :: m, hl, hm, h => by
    rw [List.pairwise_cons] at hl hm
    have hab : a = b := by
      rcases List.mem_cons.mp ((h a).mp (by simp)) with e | ha
      · exact e
      · rcases List.mem_cons.mp ((h b).mpr (by simp)) with e | hb
        · exact e.symm
        · exact absurd (hl.1 b hb) (asym _ _ (hm.1 a ha))
    subst hab
    rw [sorted_ext irr asym hl.2 hm.2 fun c => ?_]
    constructor
    · intro hc
      rcases List.mem_cons.mp ((h c).mp (List.mem_cons_of_mem _ hc)) with e | h'
      · subst e; exact absurd (hl.1 c hc) (irr _)
      · exact h'
    · intro hc
      rcases List.mem_cons.mp ((h c).mpr (List.mem_cons_of_mem _ hc)) with e | h'
      · subst e; exact absurd (hm.1 c hc) (irr _)
      · exact h'

/-! ### The symbols of a node by kind -/

theorem refSymbol_kind {n : Red} {r : Key} {k : SymKind} {s : Sym} (h : refSymbol n r k = some s) : s.kind = k := by
  rw [refSymbol_eq] at h
  obtain ⟨i, _, rfl⟩ := Option.map_eq_some_iff.mp h
  rfl

theorem instrRefs_kind {n : Red} {s : Sym} (h : s ∈ instrRefs n) : ∃ sp, s.kind = refSym sp := by
  unfold instrRefs at h
  split at h
  · cases h
  · rename_i kind sc all hk
    obtain ⟨name, _, h2⟩ := Option.bind_eq_some_iff.mp hk
    obtain ⟨sp, _, h4, _⟩ := (instrRef_iff _ _ _ _).mp h2
    refine ⟨sp, ?_⟩
    rw [← h4]
    split at h
    · cases h
    · split at h
      · obtain ⟨c, _, hc⟩ := List.mem_filterMap.mp h
        exact refSymbol_kind hc
      · rw [Option.mem_toList] at h
        obtain ⟨c, _, hc⟩ := Option.bind_eq_some_iff.mp h
        exact refSymbol_kind hc

theorem indexRef_kind {n : Red} {k : SymKind} {s : Sym} (h : indexRef n k = some s) : s.kind = k := by
  unfold indexRef at h
  split at h
  · exact refSymbol_kind h
  · cases h

theorem indexKind_ref {k : Kind} {sk : SymKind} (h : indexKind k = some sk) : ∃ sp, sk = refSym sp := by
  revert h
  cases k <;> simp only [indexKind, Option.some.injEq, reduceCtorEq, false_implies] <;> rintro rfl
  all_goals first
    | exact ⟨.func, rfl⟩ | exact ⟨.type, rfl⟩ | exact ⟨.memory, rfl⟩ | exact ⟨.table, rfl⟩

theorem localSymbols_kind {r : Key} {k : SymKind} : ∀ {gs : List Red} {i : Nat} {s : Sym}, s ∈ (localSymbols r k i gs).1 → s.kind = k
  | [], i, s, h => by simp [localSymbols] at h
  | x :: gs, i, s, h => by
    unfold localSymbols at h
    split at h
    · rcases List.mem_cons.mp h with rfl | h
      · rfl
      · exact localSymbols_kind h
    · rcases List.mem_append.mp h with h | h
      · obtain ⟨p, _, rfl⟩ := List.mem_map.mp h
        rfl
      · exact localSymbols_kind h

theorem funcLocals_kind {f : Red} {s : Sym} (h : s ∈ funcLocals f) : s.kind = .param ∨ s.kind = .local := by
  unfold funcLocals at h
  rcases List.mem_append.mp h with h | h
  · exact .inl (localSymbols_kind h)
  · exact .inr (localSymbols_kind h)

theorem filter_nil {α : Type} {p : α → Bool} {l : List α} (h : ∀ a ∈ l, p a = false) : l.filter p = [] := by
  rw [List.filter_eq_nil_iff]
  intro a ha
  simp [h a ha]

theorem filter_toList {α : Type} {p : α → Bool} {o : Option α} (h : ∀ a, o = some a → p a = true) :
    o.toList.filter p = o.toList := by
  cases o with
  | none => rfl
  | some a => simp [h a rfl]

/-- A symbol of a node is a reference, a module, a block, or a definition of a field or one of its locals. -/
theorem symsOf_kind {id : Nat} {n : Red} {s : Sym} (h : s ∈ symsOf id n) :
    s.kind = .module ∨ (∃ sp, s.kind = refSym sp) ∨ (s.kind = .blockDef ∧ isLabel n.kind = true) ∨
      (∃ sp, fieldSpace n.kind = some sp ∧ s.kind = defSym sp) ∨ s.kind = .param ∨ s.kind = .local := by
  unfold symsOf at h
  split at h
  · left
    rw [Option.mem_toList] at h
    obtain ⟨_, _, rfl⟩ := Option.map_eq_some_iff.mp h
    rfl
  · exact .inr (.inl (instrRefs_kind h))
  all_goals try
    ( rename_i hk
      rw [Option.mem_toList] at h
      obtain ⟨_, _, rfl⟩ := Option.map_eq_some_iff.mp h
      exact .inr (.inr (.inl ⟨rfl, by rw [hk]; rfl⟩)))
  split at h
  · rename_i sk hf
    rw [fieldKind_eq] at hf
    obtain ⟨sp, h1, rfl⟩ := Option.map_eq_some_iff.mp hf
    rcases List.mem_append.mp h with h | h
    · refine .inr (.inr (.inr (.inl ⟨sp, h1, ?_⟩)))
      rw [Option.mem_toList] at h
      split at h <;>
      · obtain ⟨_, _, rfl⟩ := Option.map_eq_some_iff.mp h
        rfl
    · split at h
      · exact .inr (.inr (.inr (.inr (funcLocals_kind h))))
      · cases h
  · split at h
    · rename_i sk hk
      rw [Option.mem_toList] at h
      obtain ⟨sp, rfl⟩ := indexKind_ref hk
      exact .inr (.inl ⟨sp, indexRef_kind h⟩)
    · cases h

theorem refSym_not_def {a b : Space} : refSym a ≠ defSym b := by cases a <;> cases b <;> decide

/-- The blocks among the symbols of a node. -/
theorem symsOf_blocks (id : Nat) (n : Red) : (symsOf id n).filter (fun s => s.kind == .blockDef) =
    if isLabel n.kind then (n.parent.map (blockSym n)).toList else [] := by
  by_cases hl : isLabel n.kind = true
  · rw [if_pos hl]
    have : symsOf id n = (n.parent.map (blockSym n)).toList := by
      unfold symsOf
      revert hl
      cases hk : n.kind <;> simp only [isLabel, reduceCtorEq, false_implies, Bool.false_eq_true] <;> intro _ <;> rfl
    rw [this, filter_toList]
    intro a ha
    obtain ⟨_, _, rfl⟩ := Option.map_eq_some_iff.mp ha
    rfl
  · rw [if_neg hl]
    apply filter_nil
    intro s h
    rcases symsOf_kind h with h | ⟨sp, h⟩ | h | ⟨sp, h1, h⟩ | h | h
    · rw [h]; rfl
    · rw [h]; cases sp <;> rfl
    · exact absurd h.2 hl
    · rw [h]; have := fieldSpace_module h1; cases sp <;> first | rfl | cases this
    · rw [h]; rfl
    · rw [h]; rfl

/-- The blocks among the symbols of a list of nodes. -/
theorem symsFrom_blocks : ∀ (l : List Red) (id : Nat), (symsFrom id l).filter (fun s => s.kind == .blockDef) =
    (l.filter fun n => isLabel n.kind).flatMap fun n => (n.parent.map (blockSym n)).toList
  | [], _ => by simp [symsFrom]
  | n :: l, id => by
    rw [symsFrom, List.filter_append, symsOf_blocks, symsFrom_blocks l, List.filter_cons]
    split <;> simp

/-- The definitions of a space among the symbols of a node. -/
theorem symsOf_defs (id : Nat) {m n : Red} {sp : Space} (hsp : isModuleSpace sp = true)
    (hm : ∀ sp', fieldSpace n.kind = some sp' → (if isImportDesc n.kind then n.parent.bind Red.parent else n.parent) = some m) :
    (symsOf id n).filter (fun s => s.kind == defSym sp) =
      if fieldSpace n.kind = some sp then [fieldSymOf n m sp id] else [] := by
  have hother : ∀ sp', fieldSpace n.kind = some sp' → symsOf id n = fieldSymOf n m sp' id :: (if n.kind == .MODULE_FIELD_FUNC then funcLocals n else []) := by
    intro sp' hf
    have h1 := hm sp' hf
    unfold symsOf
    revert hf h1
    cases hk : n.kind <;> simp only [fieldSpace, reduceCtorEq, false_implies, Option.some.injEq] <;> rintro rfl h1
    all_goals
      simp only [isImportDesc, Bool.false_eq_true, if_false, if_true] at h1
      simp only [fieldKind, isImportDesc, Bool.false_eq_true, if_false, if_true, importDescSymbol, parentSymbol, h1,
        Option.map_some, Option.toList_some, List.singleton_append]
      rfl
  have hloc : (if n.kind == .MODULE_FIELD_FUNC then funcLocals n else []).filter (fun s => s.kind == defSym sp) = [] := by
    apply filter_nil
    intro s h
    split at h
    · have h1 := defSym_not_slot hsp
      rcases funcLocals_kind h with h | h <;> rw [h] <;> simp [Ne.symm h1.1, Ne.symm h1.2]
    · cases h
  by_cases hf : fieldSpace n.kind = some sp
  · rw [if_pos hf, hother sp hf, List.filter_cons, hloc]
    simp [fieldSymOf]
  · rw [if_neg hf]
    apply filter_nil
    intro s h
    rw [beq_eq_false_iff_ne]
    intro hk
    rcases symsOf_kind h with h | ⟨sp', h⟩ | h | ⟨sp', h1, h⟩ | h | h
    · rw [h] at hk; revert hk hsp; cases sp <;> simp [defSym, isModuleSpace]
    · exact refSym_not_def (h.symm.trans hk)
    · rw [h.1] at hk; revert hk hsp; cases sp <;> simp [defSym, isModuleSpace]
    · rw [h] at hk
      have : sp' = sp := by
        have h2 := fieldSpace_module h1
        revert h2 hsp hk; cases sp <;> cases sp' <;> simp [defSym, isModuleSpace]
      exact hf (this ▸ h1)
    · rw [h] at hk; exact (defSym_not_slot hsp).1 hk.symm
    · rw [h] at hk; exact (defSym_not_slot hsp).2 hk.symm

/-- The entities of a space among numbered fields. -/
def spaceSyms (m : Red) (sp : Space) (l : List (Red × Nat)) : List Sym :=
  (l.filter fun p => fieldSpace p.1.kind == some sp).map fun p => fieldSymOf p.1 m sp p.2

theorem symsFrom_defs {m : Red} {sp : Space} (hsp : isModuleSpace sp = true) : ∀ (l : List Red) (id : Nat),
    (∀ n ∈ l, n.kind ≠ .MODULE) →
    (∀ n ∈ l, ∀ sp', fieldSpace n.kind = some sp' → (if isImportDesc n.kind then n.parent.bind Red.parent else n.parent) = some m) →
    (symsFrom id l).filter (fun s => s.kind == defSym sp) =
      spaceSyms m sp ((l.filter fun n => (fieldSpace n.kind).isSome).zipIdx id)
  | [], _, _, _ => by simp [symsFrom, spaceSyms]
  | n :: l, id, hn, hm => by
    rw [symsFrom, List.filter_append, symsOf_defs id hsp (hm n (by simp)),
      symsFrom_defs hsp l _ (fun x hx => hn x (List.mem_cons_of_mem _ hx)) (fun x hx => hm x (List.mem_cons_of_mem _ hx)),
      List.filter_cons]
    have hk := hn n (by simp)
    unfold nextId
    rw [if_neg hk, fieldKind_space]
    split
    · rename_i h
      rw [if_pos (by simp [h]), if_pos (by simp [h]), List.zipIdx_cons]
      simp [spaceSyms, h]
    · rename_i h
      split
      · rename_i h2
        rw [List.zipIdx_cons]
        simp [spaceSyms, h]
      · simp

/-- `get_declared_fields`: the entities of the space in document order, numbered among the fields of all kinds. -/
theorem declaredFields_eq (hs : Solid g) {m : Red} (hm : m ∈ (Red.root g).children) {sp : Space} (hsp : isModuleSpace sp = true) :
    (symbolTable (Red.root g)).declaredFields m.key (defSym sp) = spaceSyms m sp (fields m).zipIdx := by
  have hone : ∀ m' ∈ (Red.root g).children, (symsFrom 0 m'.descendants).filter (fun s => s.kind == defSym sp) =
      spaceSyms m' sp (fields m').zipIdx := by
    intro m' hm'
    have h0 : ∀ n ∈ m'.descendants, ∀ sp', fieldSpace n.kind = some sp' →
        (if isImportDesc n.kind then n.parent.bind Red.parent else n.parent) = some m' :=
      fun n hn sp' h => field_region hs hm' hn (by rw [h]; rfl)
    have hk := root_children hs hm'
    have e : fields m' = (m'.children.flatMap Red.descendants).filter fun n => (fieldSpace n.kind).isSome := by
      unfold fields
      rw [Red.descendants_eq, List.filter_cons, if_neg (by rw [hk]; decide)]
    rw [e, ← symsFrom_defs hsp _ 0 (no_module_below hs hm') fun n hn => h0 n (by rw [Red.descendants_eq]; exact List.mem_cons_of_mem _ hn)]
    rw [Red.descendants_eq m', symsFrom, List.filter_append, symsOf_defs 0 hsp (h0 m' (Red.mem_descendants_self m')),
      if_neg (by rw [hk]; simp [fieldSpace])]
    unfold nextId
    rw [if_pos hk, List.nil_append]
  classical
  unfold SymbolTable.declaredFields
  rw [symbolTable_symbols, symbols_by_module hs, List.filter_flatMap]
  have hsplit : ∀ m' ∈ (Red.root g).children, (symsFrom 0 m'.descendants).filter (fun s => s.kind == defSym sp && s.region == m.key) =
      if m' = m then spaceSyms m sp (fields m).zipIdx else [] := by
    intro m' hm'
    rw [show (fun s : Sym => s.kind == defSym sp && s.region == m.key) = (fun s => s.region == m.key && s.kind == defSym sp) from by
      funext s; rw [Bool.and_comm], ← List.filter_filter, hone m' hm']
    split
    · rename_i h
      subst h
      rw [List.filter_eq_self]
      intro s hsm
      obtain ⟨p, _, rfl⟩ := List.mem_map.mp hsm
      simp [fieldSymOf]
    · rename_i h
      apply filter_nil
      intro s hsm
      obtain ⟨p, _, rfl⟩ := List.mem_map.mp hsm
      rw [beq_eq_false_iff_ne]
      intro hk
      exact h (module_key_inj hs hm' hm hk)
  rw [flatMap_same hsplit]
  have hne : (Red.root g).children.Pairwise (· ≠ ·) := by
    have ho := Red.children_order (Red.root g)
    refine List.Pairwise.imp_of_mem ?_ ho
    intro a b ha hb h e
    subst e
    have := InTree.lt_stop hs ((InTree.root g).child ha) (by rw [root_children hs ha]; rfl)
    omega
  obtain ⟨a, b, hab⟩ := List.append_of_mem hm
  rw [hab] at hne ⊢
  rw [List.pairwise_append, List.pairwise_cons] at hne
  rw [List.flatMap_append, List.flatMap_cons, if_pos rfl]
  have h1 : (a.flatMap fun m' => if m' = m then spaceSyms m sp (fields m).zipIdx else []) = [] := by
    rw [List.flatMap_eq_nil_iff]
    intro x hx
    rw [if_neg (hne.2.2 x hx m (by simp))]
  have h2 : (b.flatMap fun m' => if m' = m then spaceSyms m sp (fields m).zipIdx else []) = [] := by
    rw [List.flatMap_eq_nil_iff]
    intro x hx
    rw [if_neg (Ne.symm (hne.2.1.1 x hx))]
  rw [h1, h2]
  simp

/-- `get_declared_params_and_locals`: the parameters and locals in order. -/
theorem declaredLocals_eq (hs : Solid g) {f : Red} (hf : InTree g f) (hk : f.kind = .MODULE_FIELD_FUNC) :
    (symbolTable (Red.root g)).declaredParamsAndLocals f.key = (localSlots f).zipIdx.map fun p => slotSymOf p.1 f p.2 := by
  rw [declared_eq hs hf hk, funcLocals_eq hs hf]
  rfl

/-! ### Blocks -/

/-- A node strictly inside another is in one of its children. -/
theorem below_child {x n : Red} (hn : InTree g n) (h : n.StrictlyBelow x) : ∃ c ∈ x.children, c ∈ n.ancestors := by
  obtain ⟨l, hne, e⟩ := h
  rcases List.eq_nil_or_concat l with h | ⟨l', f, hl⟩
  · exact absurd h hne
  · have hl' : l = l' ++ [f] := by rw [hl]; simp
    rw [hl'] at e
    have hc : (⟨f, x.self :: x.up⟩ : Red) ∈ n.ancestors := Red.mem_ancestors.mpr ⟨l', by rw [e]; simp⟩
    exact ⟨_, ((hn.ancestor hc).parent (p := x) rfl).2, hc⟩

/-- The blocks around a token: those among the ancestors of its parent. -/
theorem around_iff (hs : Solid g) {t : Tok} {x : Red} (ht : t ∈ (Red.root g).tokens) (hx : t.parent = some x) {n : Red} (hn : InTree g n) :
    (n.start ≤ t.off ∧ t.stop ≤ n.stop) ↔ n ∈ x.ancestors := by
  obtain ⟨x', h1, hxt, hmem⟩ := tok_parent ht
  rw [hx] at h1; cases h1
  have hpos := bytes_pos (tok_solid hs ht)
  have hw : x.start ≤ t.off ∧ t.stop ≤ x.stop := Red.tokens_within (Red.mem_tokens.mpr ⟨x, Red.mem_descendants_self x, hmem⟩)
  constructor
  · intro h
    rcases InTree.nested hxt hn with e | e | e | e | e
    · subst e; exact Red.self_mem_ancestors _
    · exact StrictlyBelow.mem_ancestors e
    · exfalso
      obtain ⟨c, hc, hcn⟩ := below_child hn e
      have h2 := hn.within hcn
      have h3 : El.tok t ∈ x.els := by
        obtain ⟨e, he, h⟩ := List.mem_filterMap.mp hmem
        cases e with
        | tok u => simp at h; subst h; exact he
        | node u => simp at h
      have h4 : El.node c ∈ x.els := by
        obtain ⟨e, he, h⟩ := List.mem_filterMap.mp hc
        cases e with
        | node u => simp at h; subst h; exact he
        | tok u => simp at h
      rcases pairwise_mem (childEls_order _ _ _).1 h3 h4 with h | h | h
      · cases h
      · simp only [El.start, El.stop] at h; unfold Tok.stop at *; omega
      · simp only [El.start, El.stop] at h; unfold Tok.stop at *; omega
    · unfold Tok.stop at *; omega
    · unfold Tok.stop at *; omega
  · intro h
    have := hxt.within h
    omega

/-- The blocks around a token, outermost first. -/
theorem blocks_around (hs : Solid g) {t : Tok} {x : Red} (ht : t ∈ (Red.root g).tokens) (hx : t.parent = some x) :
    ((Red.root g).descendants.filter fun n => isLabel n.kind && (decide (n.start ≤ t.off) && decide (t.stop ≤ n.stop))) =
      (x.ancestors.filter fun n => isLabel n.kind).reverse := by
  obtain ⟨x', h1, hxt, hmem⟩ := tok_parent ht
  rw [hx] at h1; cases h1
  have hpos := bytes_pos (tok_solid hs ht)
  apply sorted_ext (R := fun a b => b.StrictlyBelow a) (fun _ => StrictlyBelow.irrefl) (fun _ _ h h' => StrictlyBelow.asymm h h')
  · have h1 := (Red.descendants_preorder (Red.root g)).filter fun n => isLabel n.kind && (decide (n.start ≤ t.off) && decide (t.stop ≤ n.stop))
    refine List.Pairwise.imp_of_mem ?_ h1
    intro a b ha hb h
    rcases h with h | h
    · exact h
    · exfalso
      have ha := (List.mem_filter.mp ha).2
      have hb := (List.mem_filter.mp hb).2
      simp only [Bool.and_eq_true, decide_eq_true_eq] at ha hb
      unfold Tok.stop at *
      omega
  · rw [List.pairwise_reverse]
    refine List.Pairwise.filter _ ?_
    have aux : ∀ (fs : List Frame), (redsOf fs).Pairwise fun a b => a.StrictlyBelow b := by
      intro fs
      induction fs with
      | nil => simp [redsOf]
      | cons f fs ih =>
        rw [redsOf, List.pairwise_cons]
        refine ⟨fun a ha => ?_, ih⟩
        obtain ⟨m, hm⟩ := mem_redsOf.mp ha
        exact ⟨f :: m, by simp, by simp [hm]⟩
    exact aux _
  · intro a
    rw [List.mem_reverse, List.mem_filter, List.mem_filter]
    simp only [Bool.and_eq_true, decide_eq_true_eq]
    constructor
    · rintro ⟨h1, h2, h3⟩
      exact ⟨(around_iff hs ht hx h1).mp h3, h2⟩
    · rintro ⟨h1, h2⟩
      have h3 := hxt.ancestor h1
      exact ⟨h3, h2, (around_iff hs ht hx h3).mpr h1⟩

theorem label_parent (hs : Solid g) {n : Red} (hn : InTree g n) (hl : isLabel n.kind = true) : ∃ p, n.parent = some p :=
  hn.parent_some hs (by intro h; rw [h] at hl; cases hl)

/-- The blocks completion finds: all around the token, innermost first, numbered. -/
theorem blockIdxs_eq (hs : Solid g) {t : Tok} {x : Red} (ht : t ∈ (Red.root g).tokens) (hx : t.parent = some x) :
    blockIdxs (symbolTable (Red.root g)) t =
      (x.ancestors.filter fun n => isLabel n.kind).zipIdx.map fun p => ⟨some p.2, nameOf p.1⟩ := by
  unfold blockIdxs
  have h1 : ((symbolTable (Red.root g)).symbols.filter fun s => s.kind == .blockDef && decide (s.key.start ≤ t.off) && decide (t.stop ≤ s.key.stop)) =
      ((x.ancestors.filter fun n => isLabel n.kind).reverse).flatMap fun n => (n.parent.map (blockSym n)).toList := by
    rw [← blocks_around hs ht hx, symbolTable_symbols]
    rw [show (fun s : Sym => s.kind == .blockDef && decide (s.key.start ≤ t.off) && decide (t.stop ≤ s.key.stop)) =
      (fun s => (decide (s.key.start ≤ t.off) && decide (t.stop ≤ s.key.stop)) && s.kind == .blockDef) from by
        funext s; rw [Bool.and_assoc, Bool.and_comm], ← List.filter_filter, symsFrom_blocks]
    have : ∀ l : List Red, (∀ n ∈ l, InTree g n) → (((l.filter fun n => isLabel n.kind).flatMap fun n => (n.parent.map (blockSym n)).toList).filter
        fun s => decide (s.key.start ≤ t.off) && decide (t.stop ≤ s.key.stop)) =
        (l.filter fun n => isLabel n.kind && (decide (n.start ≤ t.off) && decide (t.stop ≤ n.stop))).flatMap fun n => (n.parent.map (blockSym n)).toList := by
      intro l
      induction l with
      | nil => intro _; rfl
      | cons n l ih =>
        intro h
        have ih := ih fun m hm => h m (List.mem_cons_of_mem _ hm)
        rw [List.filter_cons, List.filter_cons]
        by_cases hl : isLabel n.kind = true
        · obtain ⟨p, hp⟩ := label_parent hs (h n (by simp)) hl
          rw [if_pos hl, List.flatMap_cons, List.filter_append, ih, hl, Bool.true_and, hp]
          split
          · rename_i h2
            rw [List.flatMap_cons, hp]
            simp only [Option.map_some, Option.toList_some]
            rw [List.filter_cons, if_pos (show (decide ((blockSym n p).key.start ≤ t.off) && decide (t.stop ≤ (blockSym n p).key.stop)) = true from h2)]
            rfl
          · rename_i h2
            simp only [Option.map_some, Option.toList_some]
            rw [List.filter_cons, if_neg (show ¬ (decide ((blockSym n p).key.start ≤ t.off) && decide (t.stop ≤ (blockSym n p).key.stop)) = true from h2)]
            rfl
        · rw [if_neg hl, if_neg (by simp [hl]), ih]
    exact this _ fun n hn => hn
  rw [h1]
  obtain ⟨x', h2, hxt, _⟩ := tok_parent ht
  rw [hx] at h2; cases h2
  have h3 : ∀ (l : List Red) (k : Nat), (∀ n ∈ l, ∃ p, n.parent = some p) →
      ((l.reverse.flatMap fun n => (n.parent.map (blockSym n)).toList).reverse.zipIdx k).map (fun p => (⟨some p.2, p.1.idx.name⟩ : Idx)) =
      (l.zipIdx k).map fun p => ⟨some p.2, nameOf p.1⟩ := by
    intro l
    induction l with
    | nil => intro _ _; rfl
    | cons n l ih =>
      intro k h
      obtain ⟨p, hp⟩ := h n (by simp)
      have ih := ih (k + 1) fun m hm => h m (List.mem_cons_of_mem _ hm)
      rw [List.reverse_cons, List.flatMap_append, List.reverse_append]
      simp only [List.flatMap_cons, List.flatMap_nil, hp, Option.map_some, Option.toList_some, List.append_nil, List.reverse_singleton,
        List.singleton_append, List.zipIdx_cons, List.map_cons]
      rw [ih]
      rfl
  exact h3 _ 0 fun n hn => label_parent hs (hxt.ancestor (List.mem_filter.mp hn).1) (List.mem_filter.mp hn).2

/-! ### The token and its contexts -/

theorem cmpToken_typed (hs : Solid g) {u v : Text} {t : Tok} (h : BeingTyped (Red.root g) (bytes u) t) :
    cmpToken (u ++ v) (Red.root g) (posAfter u) = .done (some t) := by
  unfold cmpToken lspPosToRowan
  rw [offsetAt_eq]
  simp only
  unfold Red.tokenAtOffset
  have hw := Red.tokens_within h.mem
  have ht := h.here
  rw [if_pos (by unfold Tok.stop at hw; omega)]
  have hmem : t ∈ (Red.root g).tokens.filter fun t => t.text != [] && t.off ≤ bytes u && bytes u ≤ t.stop := by
    rw [List.mem_filter]
    refine ⟨h.mem, ?_⟩
    simp only [Bool.and_eq_true, bne_iff_ne, ne_eq, decide_eq_true_eq]
    exact ⟨⟨tok_solid hs h.mem, by omega⟩, ht.2⟩
  have hord := (Red.tokens_order (Red.root g)).filter (fun t => t.text != [] && t.off ≤ bytes u && bytes u ≤ t.stop)
  cases hl : (Red.root g).tokens.filter fun t => t.text != [] && t.off ≤ bytes u && bytes u ≤ t.stop with
  | nil => rw [hl] at hmem; cases hmem
  | cons a l =>
    cases l with
    | nil => rw [hl, List.mem_singleton] at hmem; subst hmem; rfl
    | cons b l =>
      have hat : a = t := by
        rw [hl] at hmem hord
        rcases List.mem_cons.mp hmem with e | hm
        · exact e.symm
        · exfalso
          have h1 := (List.pairwise_cons.mp hord).1 t hm
          have h2 : a ∈ (Red.root g).tokens.filter fun t => t.text != [] && t.off ≤ bytes u && bytes u ≤ t.stop := by rw [hl]; simp
          have h3 := (List.mem_filter.mp h2).2
          simp only [Bool.and_eq_true, bne_iff_ne, ne_eq, decide_eq_true_eq] at h3
          omega
      subst hat
      rfl

/-- The context for an index of a space. -/
def ctxOf : Space → CmpCtx
  | .func => .func
  | .type => .funcType
  | .global => .global
  | .memory => .memory
  | .table => .table
  | .local => .local
  | .label => .block

theorem firstNode_toks : ∀ {l : List El}, (∀ e ∈ l, ∃ t, e = .tok t) → firstNode l = none
  | [], _ => rfl
  | .tok _ :: _, h => by rw [firstNode]; exact firstNode_toks fun e he => h e (List.mem_cons_of_mem _ he)
  | .node n :: l, h => by obtain ⟨t, ht⟩ := h (.node n) (by simp); cases ht

theorem before_first {x p : Red} (hp : x.parent = some p) (hx : p.children.head? = some x) : firstNode x.before = none := by
  unfold Red.before
  rw [hp]
  apply firstNode_toks
  intro e he
  rw [List.mem_reverse] at he
  unfold Red.children at hx
  revert hx he
  generalize p.els = l
  intro hx he
  induction l with
  | nil => cases he
  | cons a l ih =>
    cases a with
    | node n =>
      simp at hx
      subst hx
      simp [isRed] at he
    | tok u =>
      rw [List.takeWhile_cons, if_pos (by rfl)] at he
      rcases List.mem_cons.mp he with rfl | he
      · exact ⟨u, rfl⟩
      · exact ih (by simpa using hx) he

theorem operandCtx_eq {name : Text} {sp : Space} {x : Red} (h : (name, sp) ∈ instrSpace)
    (hi : name = t!"table.init" → firstNode x.before = none) : operandCtx name x = [ctxOf sp] := by
  simp only [instrSpace, List.mem_cons, Prod.mk.injEq, List.not_mem_nil, or_false] at h
  unfold operandCtx
  rcases h with ⟨rfl, rfl⟩ | ⟨rfl, rfl⟩ | ⟨rfl, rfl⟩ | ⟨rfl, rfl⟩ | ⟨rfl, rfl⟩ | ⟨rfl, rfl⟩ | ⟨rfl, rfl⟩ | ⟨rfl, rfl⟩ | ⟨rfl, rfl⟩ |
    ⟨rfl, rfl⟩ | ⟨rfl, rfl⟩ | ⟨rfl, rfl⟩ | ⟨rfl, rfl⟩ | ⟨rfl, rfl⟩ | ⟨rfl, rfl⟩ | ⟨rfl, rfl⟩ | ⟨rfl, rfl⟩ | ⟨rfl, rfl⟩
  all_goals first
    | rfl
    | (rw [hi rfl]
       simp [splitDot, ctxOf])

/-- At the place of an index there is one context; none in the memory of a data segment, and none in element segments. -/
theorem cmpCtx_expects (hs : Solid g) {t : Tok} {x : Red} (hxt : InTree g x) (hx : t.parent = some x) {sp : Space} (h : Expects x sp)
    (hn : ∀ p, x.parent = some p → p.kind ≠ .MEM_USE ∧ p.kind ≠ .TABLE_USE ∧ p.kind ≠ .ELEM_LIST ∧ p.kind ≠ .ELEM) : cmpCtx t = [ctxOf sp] := by
  unfold cmpCtx
  rw [hx]
  simp only
  cases h with
  | global hp hk hi =>
    rw [hi]
    simp only [indexCtx, hp, Option.map_some, hk]
    rfl
  | table hp hk hi => exact absurd hk (hn _ hp).2.1
  | elem hp hk hi =>
    rcases hk with hk | hk
    · exact absurd hk (hn _ hp).2.2.1
    · exact absurd hk (hn _ hp).2.2.2
  | ref hr =>
    rcases refersTo_elim hr with ⟨p, n, hp, hk, hin, hsp, h0⟩ | ⟨p, hp, hk, hc, _⟩
    · have h1 := operand_kind hs (hxt.parent hp).1 hk (hxt.parent hp).2
      rw [h1]
      simp only
      have h2 : x.enclosing (fun k => k == .PLAIN_INSTR) = some p := by
        unfold Red.enclosing
        rw [Red.ancestors_eq, hp, List.find?_cons_of_neg (by rw [h1]; decide)]
        show p.ancestors.find? _ = some p
        rw [Red.ancestors_eq, List.find?_cons_of_pos (by rw [hk]; decide)]
      rw [h2]
      simp only [Option.bind_some, Red.instrName, hin, Option.map_some]
      exact operandCtx_eq hsp fun h => before_first hp (h0 h)
    · have h1 : x.kind = .INDEX := by
        have := List.find?_some hc
        simpa using this
      have h2 := hn p hp
      rw [h1]
      simp only [indexCtx, hp, Option.map_some]
      revert hk h2
      cases p.kind <;> simp only [indexKind, reduceCtorEq, false_implies, Option.some.injEq] <;> cases sp <;>
        simp [refSym, ctxOf]

/-- In the memory of a data segment and in element segments there is no context for an index. -/
theorem cmpCtx_silent {t : Tok} {x p : Red} (hx : t.parent = some x) (hk : x.kind = .INDEX) (hp : x.parent = some p)
    (hn : p.kind = .MEM_USE ∨ p.kind = .TABLE_USE ∨ p.kind = .ELEM_LIST ∨ p.kind = .ELEM) : cmpCtx t = [] := by
  unfold cmpCtx
  rw [hx]
  simp only [hk, indexCtx, hp, Option.map_some]
  rcases hn with h | h | h | h <;> rw [h]

/-! ### The items -/

/-- Label and inserted text of an item. -/
def CmpItem.shows (i : CmpItem) : Text × Text := (i.label, i.insertText.getD i.label)

theorem filterMap_zipIdx {α β : Type} (f : α → Option β) : ∀ (l : List α) (k : Nat), (l.zipIdx k).filterMap (fun p => f p.1) = l.filterMap f
  | [], _ => rfl
  | a :: l, k => by
    rw [List.zipIdx_cons, List.filterMap_cons, List.filterMap_cons, filterMap_zipIdx f l (k + 1)]

/-- What is shown for an index. -/
theorem idxText_shows {d : Red} {k : Nat} {dollar : Bool} (hn : ∀ n, nameOf d = some n → ∃ r, n = '$' :: r) :
    ((idxText ⟨some k, nameOf d⟩ dollar).map fun p => (p.1, p.2.getD p.1)).toList = numbered dollar [(d, k)] := by
  unfold idxText numbered
  cases dollar
  · simp only [Bool.false_eq_true, if_false, Idx.shown]
    cases h : nameOf d <;> simp [h]
  · simp only [if_true]
    cases h : nameOf d with
    | none => simp [h]
    | some n =>
      obtain ⟨r, rfl⟩ := hn n h
      simp [h]

theorem numbered_cons (dollar : Bool) (p : Red × Nat) (l : List (Red × Nat)) : numbered dollar (p :: l) = numbered dollar [p] ++ numbered dollar l := by
  unfold numbered
  cases dollar
  · simp
  · simp only [if_true, List.filterMap_cons, List.filterMap_nil]
    cases nameOf p.1 <;> simp

/-- The items for numbered declarations. -/
theorem items_shows {dollar : Bool} {kind : CmpKind} {detail doc : Red → Option Text} : ∀ (l : List (Red × Nat)),
    (∀ p ∈ l, ∀ n, nameOf p.1 = some n → ∃ r, n = '$' :: r) →
    (l.filterMap fun p => idxItem dollar kind (detail p.1) (doc p.1) ⟨some p.2, nameOf p.1⟩).map CmpItem.shows = numbered dollar l
  | [], _ => by cases dollar <;> rfl
  | p :: l, h => by
    have h1 := idxText_shows (k := p.2) (dollar := dollar) (h p (by simp))
    rw [numbered_cons, ← h1, ← items_shows (kind := kind) (detail := detail) (doc := doc) l fun q hq => h q (List.mem_cons_of_mem _ hq)]
    rw [List.filterMap_cons]
    unfold idxItem
    cases idxText ⟨some p.2, nameOf p.1⟩ dollar <;> rfl

/-- What is said beside the items for numbered declarations. -/
theorem items_detail {dollar : Bool} {kind : CmpKind} {detail doc : Red → Option Text} : ∀ (l : List (Red × Nat)),
    (∀ p ∈ l, ∀ n, nameOf p.1 = some n → ∃ r, n = '$' :: r) →
    (l.filterMap fun p => idxItem dollar kind (detail p.1) (doc p.1) ⟨some p.2, nameOf p.1⟩).map CmpItem.detail =
      (offered dollar (l.map Prod.fst)).map detail
  | [], _ => by cases dollar <;> rfl
  | p :: l, h => by
    have ih := items_detail (dollar := dollar) (kind := kind) (detail := detail) (doc := doc) l fun q hq => h q (List.mem_cons_of_mem _ hq)
    have h1 : (idxItem dollar kind (detail p.1) (doc p.1) ⟨some p.2, nameOf p.1⟩).map CmpItem.detail =
        if (!dollar || (nameOf p.1).isSome) = true then some (detail p.1) else none := by
      cases dollar
      · rfl
      · cases hn : nameOf p.1 with
        | none => rfl
        | some n =>
          obtain ⟨r, rfl⟩ := h p (by simp) n hn
          rfl
    unfold offered at ih ⊢
    rw [List.filterMap_cons, List.map_cons, List.filter_cons]
    split at h1
    · rename_i hc
      rw [if_pos hc, List.map_cons, ← ih]
      cases hi : idxItem dollar kind (detail p.1) (doc p.1) ⟨some p.2, nameOf p.1⟩ with
      | none => rw [hi] at h1; cases h1
      | some a =>
        rw [hi] at h1
        simp only [Option.map_some, Option.some.injEq] at h1
        rw [List.map_cons, h1]
    · rename_i hc
      rw [if_neg hc, ← ih]
      cases hi : idxItem dollar kind (detail p.1) (doc p.1) ⟨some p.2, nameOf p.1⟩ with
      | none => rfl
      | some a => rw [hi] at h1; cases h1

theorem typeName_text (ty : ValType) : typeName ty = some ty.text := by cases ty <;> decide

/-- The items for functions. -/
theorem funcItems_shows {tb : SymbolTable} {root : Red} {dollar : Bool} : ∀ {l : List (Red × Nat)} {f : Red × Nat → Sym} {items : List CmpItem},
    (∀ p ∈ l, ∀ n, nameOf p.1 = some n → ∃ r, n = '$' :: r) → (∀ p ∈ l, (f p).idx = ⟨some p.2, nameOf p.1⟩) →
    Ans.filterMapL (funcItem tb root dollar) (l.map f) = .done items → items.map CmpItem.shows = numbered dollar l
  | [], _, items, _, _, h => by cases h; cases dollar <;> rfl
  | p :: l, f, items, hn, hf, h => by
    rw [List.map_cons, Ans.filterMapL] at h
    obtain ⟨o, h1, h2⟩ := bind_done h
    obtain ⟨rest, h3, h4⟩ := bind_done h2
    cases h4
    have h5 := idxText_shows (k := p.2) (dollar := dollar) (hn p (by simp))
    rw [numbered_cons, ← h5, List.map_append,
      funcItems_shows (fun q hq => hn q (List.mem_cons_of_mem _ hq)) (fun q hq => hf q (List.mem_cons_of_mem _ hq)) h3]
    congr 1
    unfold funcItem at h1
    rw [hf p (by simp)] at h1
    cases hi : idxText ⟨some p.2, nameOf p.1⟩ dollar with
    | none => rw [hi] at h1; cases h1; rfl
    | some q =>
      rw [hi] at h1
      obtain ⟨hd, _, h7⟩ := bind_done h1
      cases h7
      rfl

theorem funcItem_ok (hs : Solid g) (h0 : ValOk g) (hr : (Red.root g).green = g) {dollar : Bool} {s : Sym}
    (h : s ∈ (symbolTable (Red.root g)).symbols) : (funcItem (symbolTable (Red.root g)) (Red.root g) dollar s).Ok := by
  unfold funcItem
  split
  · exact ok_done _
  · refine Ans.Ok.bind ?_ fun _ _ => ok_done _
    unfold renderFuncHeader
    exact Ans.Ok.bind (getFuncSig_ok hs h0 hr h) fun _ _ => ok_done _

theorem ctxItems_ok (hs : Solid g) (h0 : ValOk g) (hr : (Red.root g).green = g) (t : Tok) (c : CmpCtx) :
    (ctxItems (symbolTable (Red.root g)) (Red.root g) t c).Ok := by
  cases c
  case func =>
    rw [ctxItems]
    split
    · exact ok_done _
    · exact filterMapL_ok fun s h => funcItem_ok hs h0 hr (List.mem_filter.mp h).1
  all_goals rw [ctxItems]
  all_goals first
    | exact ok_done _
    | (split <;> exact ok_done _)

/-! ### The answer -/

theorem names_dollar (h0 : IdentOk g) (hr : (Red.root g).green = g) {d : Red} (hd : InTree g d) {n : Text} (hn : nameOf d = some n) :
    ∃ r, n = '$' :: r := by
  obtain ⟨r, h, _⟩ := identText_ident (hd.inherit IdentOk.child h0 hr) hn
  exact ⟨r, h⟩

theorem cmpList_one {tb : SymbolTable} {root : Red} {t : Tok} {c : CmpCtx} {items : List CmpItem} (h : ctxItems tb root t c = .done items) :
    cmpList tb root t [c] = .done items := by
  unfold cmpList
  simp only [Ans.mapL, h, Ans.bind]
  simp

theorem completion_one (hs : Solid g) {u v : Text} {t : Tok} (ht : BeingTyped (Red.root g) (bytes u) t) {c : CmpCtx} (hc : cmpCtx t = [c])
    {items : List CmpItem} (h : ctxItems (symbolTable (Red.root g)) (Red.root g) t c = .done items) :
    completion (u ++ v) (Red.root g) (posAfter u) = .done (some items) := by
  unfold completion
  rw [cmpToken_typed hs ht]
  simp only [Ans.bindO, Ans.bind, hc, cmpList_one h]

theorem completion_silent (hs : Solid g) {u v : Text} {t : Tok} (ht : BeingTyped (Red.root g) (bytes u) t) (hc : cmpCtx t = []) :
    completion (u ++ v) (Red.root g) (posAfter u) = .done none := by
  unfold completion
  rw [cmpToken_typed hs ht]
  simp only [Ans.bindO, Ans.bind, hc]

theorem tok_enclosing {t : Tok} {x : Red} (hx : t.parent = some x) (p : Kind → Bool) : t.enclosing p = x.enclosing p := by
  unfold Tok.enclosing
  rw [hx]
  rfl

theorem mem_fieldsOf {sp : Space} {m : Red} {p : Red × Nat} (h : p ∈ fieldsOf sp m) : p.1 ∈ m.descendants := by
  have h1 := (List.mem_filter.mp h).1
  have h2 := List.mem_zipIdx h1
  have h3 : p.1 ∈ fields m := by rw [h2.2.2]; exact List.getElem_mem _
  exact (List.mem_filter.mp h3).1

theorem zipIdx_filter_fst {α : Type} (p : α → Bool) : ∀ (l : List α) (k : Nat),
    ((l.zipIdx k).filter fun q => p q.1).map Prod.fst = l.filter p
  | [], _ => rfl
  | a :: l, k => by
    rw [List.zipIdx_cons, List.filter_cons, List.filter_cons]
    show List.map Prod.fst (if p a = true then _ else _) = _
    split
    · rw [List.map_cons, zipIdx_filter_fst p l (k + 1)]
    · exact zipIdx_filter_fst p l (k + 1)

/-- The items for an index of a space of the module. -/
theorem moduleItems (hs : Solid g) (h0 : ValOk g) (hi : IdentOk g) (hr : (Red.root g).green = g) {t : Tok} {m : Red}
    (hm : m ∈ (Red.root g).children) (ht : t.enclosing isModule = some m) {sp : Space} (hsp : isModuleSpace sp = true) :
    ∃ items, ctxItems (symbolTable (Red.root g)) (Red.root g) t (ctxOf sp) = .done items ∧
      items.map CmpItem.shows = numbered (hasDollar t) (fieldsOf sp m) ∧
      (sp = .global → items.map CmpItem.detail = (offered (hasDollar t) (indexSpace sp m)).map fun d => (globalTypeOf d).bind typeName) := by
  have hn : ∀ p ∈ fieldsOf sp m, ∀ n, nameOf p.1 = some n → ∃ r, n = '$' :: r := fun p hp n h =>
    names_dollar hi hr (((InTree.root g).child hm).descendant (mem_fieldsOf hp)) h
  have hd := declaredFields_eq hs hm hsp
  have e : ∀ (F : Sym → Option CmpItem), (spaceSyms m sp (fields m).zipIdx).filterMap F =
      (fieldsOf sp m).filterMap fun p => F (fieldSymOf p.1 m sp p.2) := by
    intro F
    unfold spaceSyms fieldsOf
    rw [List.filterMap_map]
    rfl
  obtain ⟨items, hok⟩ := ctxItems_ok hs h0 hr t (ctxOf sp)
  refine ⟨items, hok, ?_⟩
  cases sp with
  | «local» => cases hsp
  | label => cases hsp
  | func =>
    rw [ctxOf, ctxItems, ht] at hok
    simp only at hok
    rw [show SymKind.func = defSym .func from rfl, hd] at hok
    exact ⟨funcItems_shows hn (fun _ _ => rfl) hok, nofun⟩
  | type =>
    rw [ctxOf, ctxItems, ht] at hok
    simp only at hok
    rw [show SymKind.type = defSym .type from rfl, hd, e] at hok
    cases hok
    exact ⟨items_shows (detail := fun _ => none) (doc := fun _ => none) _ hn, nofun⟩
  | global =>
    rw [ctxOf, ctxItems, ht] at hok
    simp only at hok
    rw [show SymKind.globalDef = defSym .global from rfl, hd, e] at hok
    cases hok
    refine ⟨items_shows (detail := fun d => (extractGlobalType d.green).map ValType.text) (doc := fun _ => none) _ hn, fun _ => ?_⟩
    refine (items_detail (detail := fun d => (extractGlobalType d.green).map ValType.text) (doc := fun _ => none) _ hn).trans ?_
    have hf : (fieldsOf .global m).map Prod.fst = indexSpace .global m := by
      rw [indexSpace_eq]
      exact zipIdx_filter_fst (fun n : Red => fieldSpace n.kind == some .global) (fields m) 0
    rw [hf]
    apply List.map_congr_left
    intro d hd
    have h1 := ((InTree.root g).child hm).descendant (List.mem_filter.mp (List.mem_filter.mp hd).1).1
    rw [extractGlobal_declared hs h1 (h1.valOk h0 hr)]
    cases globalTypeOf d with
    | none => rfl
    | some ty => exact (typeName_text ty).symm
  | memory =>
    rw [ctxOf, ctxItems, ht] at hok
    simp only at hok
    rw [show SymKind.memoryDef = defSym .memory from rfl, hd, e] at hok
    cases hok
    exact ⟨items_shows (detail := fun _ => none) (doc := fun _ => none) _ hn, nofun⟩
  | table =>
    rw [ctxOf, ctxItems, ht] at hok
    simp only at hok
    have hd' : ((symbolTable (Red.root g)).symbols.filter fun s => s.kind == .tableDef && s.region == m.key) =
      spaceSyms m .table (fields m).zipIdx := hd
    rw [hd', e] at hok
    cases hok
    exact ⟨items_shows (detail := fun _ => none) (doc := fun _ => none) _ hn, nofun⟩

/-- The items for the index of a local. -/
theorem localItems (hs : Solid g) (h0 : ValOk g) (hi : IdentOk g) (hr : (Red.root g).green = g) {t : Tok} {f : Red}
    (hf : InTree g f) (hk : f.kind = .MODULE_FIELD_FUNC) (ht : (t.enclosing fun k => k == .MODULE_FIELD_FUNC) = some f) :
    ∃ items, ctxItems (symbolTable (Red.root g)) (Red.root g) t .local = .done items ∧
      items.map CmpItem.shows = choices (hasDollar t) (localSlots f) ∧
      items.map CmpItem.detail = (offered (hasDollar t) (localSlots f)).map fun d => (declaredType d).bind typeName := by
  rw [ctxItems, ht]
  simp only
  have hn : ∀ p ∈ (localSlots f).zipIdx, ∀ n, nameOf p.1 = some n → ∃ r, n = '$' :: r := by
    intro p hp n h
    have h2 := List.mem_zipIdx hp
    have h3 : p.1 ∈ localSlots f := by rw [h2.2.2]; exact List.getElem_mem _
    exact names_dollar hi hr (mem_localSlots hf h3).1 h
  refine ⟨_, rfl, ?_, ?_⟩
  · rw [declaredLocals_eq hs hf hk, List.filterMap_map]
    exact items_shows (detail := fun d => (extractType d.green).map ValType.text) (doc := fun _ => none) _ hn
  · rw [declaredLocals_eq hs hf hk, List.filterMap_map]
    refine (items_detail (detail := fun d => (extractType d.green).map ValType.text) (doc := fun _ => none) _ hn).trans ?_
    rw [show List.map Prod.fst (localSlots f).zipIdx = localSlots f by simp [List.zipIdx_map_fst]]
    apply List.map_congr_left
    intro d hd
    obtain ⟨h1, grp, _, hg, hx⟩ := mem_localSlots hf (List.mem_filter.mp hd).1
    have h2 : d.kind = .VAL_TYPE ∨ d.kind = .PARAM ∨ d.kind = .LOCAL := by
      rcases hx with ⟨rfl, _⟩ | ⟨hx, _⟩
      · rcases hg with ⟨e, _⟩ | ⟨e, _⟩
        · exact .inr (.inl e)
        · exact .inr (.inr e)
      · exact .inl hx
    rw [extractType_declared hs h1 (h1.valOk h0 hr) h2]
    cases declaredType d with
    | none => rfl
    | some ty => exact (typeName_text ty).symm

/-- The items for the index of a label. -/
theorem labelItems (hs : Solid g) (hi : IdentOk g) (hr : (Red.root g).green = g) {t : Tok} {x : Red}
    (ht : t ∈ (Red.root g).tokens) (hx : t.parent = some x) :
    ∃ items, ctxItems (symbolTable (Red.root g)) (Red.root g) t .block = .done items ∧
      items.map CmpItem.shows = choices (hasDollar t) (x.ancestors.filter fun a => isLabel a.kind) := by
  rw [ctxItems]
  refine ⟨_, rfl, ?_⟩
  rw [blockIdxs_eq hs ht hx, List.filterMap_map]
  obtain ⟨x', h1, hxt, _⟩ := tok_parent ht
  rw [hx] at h1; cases h1
  refine items_shows (detail := fun _ => none) (doc := fun _ => none) _ ?_
  intro p hp n h
  have h2 := List.mem_zipIdx hp
  have h3 : p.1 ∈ x.ancestors.filter fun a => isLabel a.kind := by rw [h2.2.2]; exact List.getElem_mem _
  exact names_dollar hi hr (hxt.ancestor (List.mem_filter.mp h3).1) h

/-- Completion does not panic, unless the position is behind the part of the text that was parsed. -/
theorem completion_ok (hs : Solid g) (h0 : ValOk g) (hr : (Red.root g).green = g) {src : Text} {p : Pos}
    (hp : ∀ off, offsetAt src p = some off → off ≤ (Red.root g).stop) : (completion src (Red.root g) p).Ok := by
  unfold completion
  refine Ans.Ok.bindO ?_ fun t _ => ?_
  · unfold cmpToken lspPosToRowan
    cases ho : offsetAt src p with
    | none => exact ok_done _
    | some off =>
      refine Ans.Ok.bind ?_ fun a _ => by cases a <;> exact ok_done _
      unfold Red.tokenAtOffset
      rw [if_pos ⟨Nat.zero_le _, hp off ho⟩]
      split <;> exact ok_done _
  · split
    · exact ok_done _
    · refine Ans.Ok.bind ?_ fun _ _ => ok_done _
      unfold cmpList
      exact Ans.Ok.bind (mapL_ok fun c _ => ctxItems_ok hs h0 hr t c) fun _ _ => ok_done _

theorem fields_once (hs : Solid g) {m : Red} (hm : InTree g m) : (fields m).Pairwise (· ≠ ·) := by
  have h1 : (fields m).Pairwise PreRel := m.descendants_preorder.filter _
  refine List.Pairwise.imp_of_mem ?_ h1
  rintro a b ha _ h rfl
  have ha' := List.mem_filter.mp ha
  obtain ⟨sp, hsp⟩ := Option.isSome_iff_exists.mp ha'.2
  have hp : a.start < a.stop := (InTree.descendant hm ha'.1).lt_stop hs (class_nonempty (symClass_field hsp))
  rcases h with ⟨l, hne, e⟩ | h
  · have := congrArg List.length e
    rw [List.length_append] at this
    have : l.length = 0 := by omega
    exact hne (List.length_eq_zero_iff.mp this)
  · omega

/-- What is offered for the entities of a space, numbered among all: what is to be offered if the numbers agree. -/
theorem numbered_fields (hs : Solid g) {m : Red} (hm : InTree g m) {sp : Space} {dollar : Bool}
    (h : dollar = true ∨ ∀ (d : Red) (k : Nat), (indexSpace sp m)[k]? = some d → nameOf d = none → (fields m)[k]? = some d) :
    numbered dollar (fieldsOf sp m) = choices dollar (indexSpace sp m) := by
  have hf : (fieldsOf sp m).map Prod.fst = indexSpace sp m := by
    rw [indexSpace_eq]
    exact zipIdx_filter_fst (fun n : Red => fieldSpace n.kind == some sp) (fields m) 0
  cases dollar with
  | true =>
    unfold choices numbered
    simp only [if_true]
    rw [filterMap_zipIdx (fun d => (nameOf d).map fun n => (n, n.drop 1)), ← hf, List.filterMap_map]
    rfl
  | false =>
    have h := h.resolve_left (by decide)
    unfold choices numbered
    simp only [Bool.false_eq_true, if_false]
    apply List.ext_getElem?
    intro j
    rw [List.getElem?_map, List.getElem?_map, List.getElem?_zipIdx]
    have hj : (indexSpace sp m)[j]? = ((fieldsOf sp m)[j]?).map Prod.fst := by rw [← hf, List.getElem?_map]
    rw [hj]
    cases hq : (fieldsOf sp m)[j]? with
    | none => rfl
    | some q =>
      rw [hq] at hj
      obtain ⟨d, i⟩ := q
      simp only [Option.map_some, Nat.zero_add] at hj ⊢
      cases hn : nameOf d with
      | some n => rfl
      | none =>
        have h1 := h d j hj hn
        have h2 := List.mem_zipIdx (List.mem_filter.mp (List.mem_of_getElem? hq)).1
        obtain ⟨_, h3, h4⟩ := h2
        have h3 : i < (fields m).length := by simpa using h3
        have h4 : d = (fields m)[i] := by simpa using h4
        obtain ⟨h5, h6⟩ := List.getElem?_eq_some_iff.mp h1
        have hd := List.pairwise_iff_getElem.mp (fields_once hs hm)
        have : i = j := by
          rcases Nat.lt_trichotomy i j with hlt | e | hlt
          · exact absurd (h4.symm.trans h6.symm) (hd i j h3 h5 hlt)
          · exact e
          · exact absurd (h6.trans h4) (hd j i h5 h3 hlt)
        rw [this]

/-! ### Concrete cursors -/

/-- Evaluates a condition on the token being typed, its parent and the parent of that. -/
def typedTest (root : Red) (off : Nat) (f : Tok → Red → Red → Bool) : Bool :=
  match root.tokens.find? fun t => decide (t.off < off) && decide (off ≤ t.off + bytes t.text) with
  | none => false
  | some t =>
    match t.parent with
    | none => false
    | some x =>
      match x.parent with
      | none => false
      | some p => f t x p

theorem typedTest_spec {root : Red} {off : Nat} {f : Tok → Red → Red → Bool} (h : typedTest root off f = true) :
    ∃ t x p, BeingTyped root off t ∧ t.parent = some x ∧ x.parent = some p ∧ f t x p = true := by
  unfold typedTest at h
  split at h
  · cases h
  · rename_i t ht
    split at h
    · cases h
    · rename_i x hx
      split at h
      · cases h
      · rename_i p hp
        have h1 := List.find?_some ht
        simp only [Bool.and_eq_true, decide_eq_true_eq] at h1
        exact ⟨t, x, p, ⟨List.mem_of_find?_eq_some ht, h1⟩, hx, hp, h⟩

/-- Whether the node is an operand of an instruction that takes indices of the space; `table.init` is left out. -/
def operandOf (sp : Space) (p : Red) : Bool :=
  p.kind == .PLAIN_INSTR &&
    match p.token .INSTR_NAME with
    | none => false
    | some n => decide ((n.text, sp) ∈ instrSpace) && n.text != t!"table.init"

theorem operandOf_spec {sp : Space} {x p : Red} (hp : x.parent = some p) (h : operandOf sp p = true) : RefersTo x sp := by
  unfold operandOf at h
  simp only [Bool.and_eq_true, beq_iff_eq] at h
  obtain ⟨h1, h2⟩ := h
  split at h2
  · cases h2
  · rename_i n hn
    simp only [Bool.and_eq_true, decide_eq_true_eq, bne_iff_ne, ne_eq] at h2
    exact .operand hp h1 hn h2.1 fun e => absurd e h2.2

end Verif
