import Verif.Lemmas.SameCalls
import Verif.Lemmas.Names
import Verif.Spec.SameNav
/-!
Go to definition and find references in documents that differ in white space and comments only.
-/
namespace Verif
open Spec

variable {g : Green}

/-! ### The recorded branch targets, in order -/

theorem symsOf_other {n : Red} (h : n.kind ≠ .PLAIN_INSTR) (id : Nat) : (symsOf id n).filter (fun s => s.kind == .blockRef) = [] := by
  rw [List.filter_eq_nil_iff]
  intro s hsm hk
  have hk : s.kind = .blockRef := by simpa using hk
  have hp : ∀ {k : SymKind} {id : Nat}, s ∈ (parentSymbol n id k).toList → s.kind = k := by
    intro k id hm
    unfold parentSymbol at hm
    rw [Option.mem_toList] at hm
    obtain ⟨_, _, rfl⟩ := Option.map_eq_some_iff.mp hm
    rfl
  have hi : ∀ {k : SymKind} {id : Nat}, s ∈ (importDescSymbol n id k).toList → s.kind = k := by
    intro k id hm
    unfold importDescSymbol at hm
    rw [Option.mem_toList] at hm
    obtain ⟨_, _, rfl⟩ := Option.map_eq_some_iff.mp hm
    rfl
  have hr : ∀ {x : Red} {rg : Key} {k : SymKind}, refSymbol x rg k = some s → s.kind = k := by
    intro x rg k hm
    unfold refSymbol at hm
    split at hm
    · cases hm; rfl
    · obtain ⟨_, _, rfl⟩ := Option.map_eq_some_iff.mp hm
      rfl
  have hx : ∀ {k : SymKind}, s ∈ (indexRef n k).toList → s.kind = k := by
    intro k hm
    unfold indexRef at hm
    rw [Option.mem_toList] at hm
    split at hm
    · exact hr hm
    · cases hm
  have hl : s ∉ funcLocals n := by
    intro hm
    unfold funcLocals at hm
    rcases List.mem_append.mp hm with hm | hm
    · rw [localSymbols_kind hm] at hk; cases hk
    · rw [localSymbols_kind hm] at hk; cases hk
  unfold symsOf at hsm
  split at hsm
  · rw [Option.mem_toList] at hsm
    obtain ⟨_, _, rfl⟩ := Option.map_eq_some_iff.mp hsm
    cases hk
  · exact h ‹_›
  · rw [hp hsm] at hk; cases hk
  · rw [hp hsm] at hk; cases hk
  · rw [hp hsm] at hk; cases hk
  · split at hsm
    · rename_i sk hsk
      have hne : sk ≠ .blockRef := by
        rintro rfl
        revert hsk
        cases n.kind <;> simp [fieldKind]
      rcases List.mem_append.mp hsm with hsm | hsm
      · split at hsm
        · exact hne ((hi hsm).symm.trans hk)
        · exact hne ((hp hsm).symm.trans hk)
      · split at hsm
        · exact hl hsm
        · cases hsm
    · split at hsm
      · rename_i sk hsk
        have hne : sk ≠ .blockRef := by
          rintro rfl
          revert hsk
          cases n.kind <;> simp [indexKind]
        exact hne ((hx hsm).symm.trans hk)
      · cases hsm

theorem chain_all (hs : Solid g) {r : Red} (hr : InTree g r) :
    blockChain (symbolTable (Red.root g)).symbols (r.start + 1) r.key 0 = ((run r).zipIdx 0).map fun q => (q.1.key, ⟨some q.2, nameOf q.1⟩) :=
  blockChain_eq hs _ (fun _ h => (mem_symbols_iff hs).mp h) _ r 0 hr (by omega)
    fun q hq hl p hp => (mem_symbols_iff hs).mpr ⟨q, .block (hr.ancestor hq) hl hp⟩

/-- The targets recorded for a branch operand. -/
def targetsOf (g : Green) (s : Sym) : List BlockEntry :=
  (blockChain (symbolTable (Red.root g)).symbols (s.region.start + 1) s.region 0).map fun (k, i) => ⟨s.key, k, i⟩

theorem refEntries_order (hs : Solid g) : ∀ (l syms : List Sym), (∀ s ∈ syms ++ l, ∃ x, IsSym g s x) →
    (∀ s ∈ l, ∀ x, IsSym g s x → ∀ q ∈ x.ancestors, isLabel q.kind = true → ∀ p, q.parent = some p → blockSym q p ∈ syms) →
    refEntries syms l = (l.filter fun s => s.kind == .blockRef).flatMap (targetsOf g) := by
  intro l
  induction l with
  | nil => intro syms _ _; simp [refEntries]
  | cons s l ih =>
    intro syms h1 h2
    have := ih (syms ++ [s]) (by intro t ht; exact h1 t (by simpa using ht)) (by
      intro t ht x hx q hq hl p hp
      exact List.mem_append_left _ (h2 t (List.mem_cons_of_mem _ ht) x hx q hq hl p hp))
    rw [refEntries, this, List.filter_cons]
    obtain ⟨x, hx⟩ := h1 s (by simp)
    cases hk : (s.kind == SymKind.blockRef) with
    | true =>
      obtain ⟨r, i, hb, hi, hse⟩ := blockRef_sym hx (by simpa using hk)
      have hrm : r ∈ x.ancestors := List.mem_of_find?_eq_some hb.2.2.1
      have hrt := hb.1.ancestor hrm
      have e : s.region = r.key := by rw [hse]
      have hce : blockChain (syms ++ [s]) (s.region.start + 1) s.region 0 =
          ((run r).zipIdx 0).map fun q => (q.1.key, ⟨some q.2, nameOf q.1⟩) := by
        rw [e]
        refine blockChain_eq hs _ (by intro t ht; refine h1 t ?_; simp at ht ⊢; grind) _ r 0 hrt (by simp [Red.key]) ?_
        intro q hq hl p hp
        exact List.mem_append_left _ (h2 s (by simp) x hx q (Red.ancestors_trans hrm hq) hl p hp)
      rw [if_pos rfl, if_pos rfl, List.flatMap_cons, hce]
      unfold targetsOf
      rw [e, show r.key.start + 1 = r.start + 1 from rfl, chain_all hs hrt]
    | false => simp

theorem blocksFrom_order (hs : Solid g) : ∀ (l a : List Red), (Red.root g).descendants = a ++ l →
    blocksFrom (idAfter 0 a) (symsFrom 0 a) l = ((symsFrom (idAfter 0 a) l).filter fun s => s.kind == .blockRef).flatMap (targetsOf g) := by
  intro l
  induction l with
  | nil => intro a _; simp [blocksFrom, symsFrom]
  | cons n l ih =>
    intro a hd
    have y2 := ih (a ++ [n]) (by rw [hd]; simp)
    rw [idAfter_append, symsFrom_append] at y2
    simp only [idAfter, symsFrom, List.append_nil] at y2
    rw [blocksFrom, y2, symsFrom, List.filter_append, List.flatMap_append]
    congr 1
    have hn : InTree g n := by unfold InTree; rw [hd]; simp
    have hall : symsFrom 0 (Red.root g).descendants = symsFrom 0 a ++ (symsOf (idAfter 0 a) n ++ symsFrom (nextId (idAfter 0 a) n.kind) l) := by
      rw [hd, symsFrom_append, symsFrom]
    have hmem : ∀ s ∈ symsFrom 0 a ++ (symsOf (idAfter 0 a) n ++ symsFrom (nextId (idAfter 0 a) n.kind) l), ∃ x, IsSym g s x := by
      intro s hsm
      rw [← hall, ← symbolTable_symbols] at hsm
      exact (mem_symbols_iff hs).mp hsm
    by_cases hk : n.kind = .PLAIN_INSTR
    · rw [if_pos hk]
      have e : symsOf (idAfter 0 a) n = instrRefs n := by unfold symsOf; rw [hk]
      rw [e] at hmem ⊢
      refine refEntries_order hs (instrRefs n) (symsFrom 0 a)
        (fun s hsm => hmem s (by simp only [List.mem_append] at hsm ⊢; rcases hsm with h | h; exact .inl h; exact .inr (.inl h))) ?_
      intro s hsm x hx q hq hl p hp
      obtain ⟨x', sp, r, i, h1, h2, h3, h4, h5⟩ := (mem_instrRefs hs hn hk).mp hsm
      have hx' : IsSym g s x' := by rw [h5]; exact .ref (hn.child h1) h2 h3 h4
      have := (hx.key_inj hs hx' rfl).1
      subst this
      rw [Red.ancestors_eq, Red.parent_of_child h1] at hq
      rcases List.mem_cons.mp hq with rfl | hq
      · have hok := operand_kind hs hn hk h1
        rw [hok] at hl; cases hl
      · have hne : q ≠ n := by rintro rfl; rw [hk] at hl; cases hl
        exact symsFrom_mem (ancestor_before hs hd (by rw [hk]; rfl) hq hne) (fun id => symsOf_block hl hp id) 0
    · rw [if_neg hk, symsOf_other hk]
      rfl

/-- The recorded branch targets: for every branch operand the blocks around it, innermost first. -/
theorem blocks_order (hs : Solid g) : (symbolTable (Red.root g)).blocks =
    ((symbolTable (Red.root g)).symbols.filter fun s => s.kind == .blockRef).flatMap (targetsOf g) := by
  have := blocksFrom_order hs (Red.root g).descendants [] rfl
  rw [symbolTable_blocks]
  simp only [idAfter, symsFrom] at this
  rw [this, ← symbolTable_symbols]

theorem key_comm (a b : Key) : (a == b) = (b == a) := by
  rw [Bool.eq_iff_iff, beq_iff_eq, beq_iff_eq, eq_comm]

namespace Stripped

variable {g' : Green} {x x' : Red} {src src' : Text}

/-- Corresponding branch targets. -/
def BlockRel (g g' : Green) (b b' : BlockEntry) : Prop :=
  ∃ s s' q q', SymBoth g g' s s' ∧ Rel g g' q q' ∧ isLabel q.kind = true ∧ b.ref = s.key ∧ b'.ref = s'.key ∧
    b.def_ = q.key ∧ b'.def_ = q'.key ∧ b.idx = b'.idx

section
variable (hs : Solid g) (hs' : Solid g') (hd : DerivedL g.children) (hd' : DerivedL g'.children) (he : strip g = strip g')
include hs hs' hd hd'

theorem key_iff {s s' : Sym} (h : SymBoth g g' s s') (hx : Rel g g' x x') : (s.key == x.key) = (s'.key == x'.key) := by
  obtain ⟨y, y', _, _, p⟩ := h.pair hs hs' hd hd'
  rw [Bool.eq_iff_iff, beq_iff_eq, beq_iff_eq, (p.sym.inTree hs).2.1, (p.sym'.inTree hs').2.1]
  have := same_iff hs hs' p.rel hx p.inked p.inked'
  constructor
  · intro e
    rw [this.mp (InTree.key_inj hs hx.left p.rel.left e.symm (p.sym.nonempty hs)).symm]
  · intro e
    rw [this.mpr (InTree.key_inj hs' hx.right p.rel.right e.symm (p.sym'.nonempty hs')).symm]

theorem targets_rel {s s' : Sym} (h : SymBoth g g' s s') : All2 (BlockRel g g') (targetsOf g s) (targetsOf g' s') := by
  obtain ⟨y, y', r, r', p⟩ := h.pair hs hs' hd hd'
  unfold targetsOf
  rw [p.key, p.key', show r.key.start = r.start from rfl, show r'.key.start = r'.start from rfl, chain_all hs p.region.left,
    chain_all hs' p.region.right, List.map_map, List.map_map]
  have hr : All2 (Rel g g') (run r) (run r') := p.region.ancestors.takeWhile fun a b hab => by rw [hab.kind]
  refine (hr.and_mem.zipIdx 0).map fun a b hab => ?_
  have hl := (run_mem hs p.region.left hab.1.2).2.1
  exact ⟨s, s', a.1, b.1, h, hab.1.1, hl, rfl, rfl, rfl, rfl, by
    show Idx.mk (some a.2) (nameOf a.1) = Idx.mk (some b.2) (nameOf b.1)
    rw [hab.2, hab.1.1.nameOf hs hs']⟩

include he

theorem blocks_rel : All2 (BlockRel g g') (symbolTable (Red.root g)).blocks (symbolTable (Red.root g')).blocks := by
  rw [blocks_order hs, blocks_order hs']
  exact ((symbols_iso hs hs' he).mem_both.filter fun a b hab => by rw [hab.1.kind_eq]).flatMap fun a b hab => targets_rel hs hs' hd hd' hab

theorem byKey_rel (h : Rel g g' x x') : Opt2 (SymBoth g g') ((symbolTable (Red.root g)).byKey x.key) ((symbolTable (Red.root g')).byKey x'.key) :=
  (symbols_iso hs hs' he).mem_both.find fun _ _ hab => key_iff hs hs' hd hd' hab h

theorem localDef_rel (h : Rel g g' x x') : Opt2 (SymBoth g g') ((symbolTable (Red.root g)).findParamOrLocalDef x.key)
    ((symbolTable (Red.root g')).findParamOrLocalDef x'.key) := by
  have hall := (symbols_iso hs hs' he).mem_both
  unfold SymbolTable.findParamOrLocalDef SymbolTable.findLocalRef
  refine (hall.find fun a b hab => by rw [hab.1.kind_eq, key_iff hs hs' hd hd' hab h]).bind fun l l' hl => hall.find fun a b hab => ?_
  obtain ⟨_, _, _, _, p⟩ := SymBoth.pair hs hs' hd hd' hl
  obtain ⟨_, _, _, _, q⟩ := SymBoth.pair hs hs' hd hd' hab
  rw [region_iff hs hs' hd hd' hl hab, q.kind, p.idx, q.idx]

theorem findDefs_rel (h : Rel g g' x x') : Opt2 (All2 (SymBoth g g')) ((symbolTable (Red.root g)).findDefs x.key)
    ((symbolTable (Red.root g')).findDefs x'.key) := by
  have hall := (symbols_iso hs hs' he).mem_both
  unfold SymbolTable.findDefs
  refine (byKey_rel hs hs' hd hd' he h).bind fun l l' hl => ?_
  rw [hl.1.kind_eq]
  cases l'.kind.defKind with
  | none => exact .none
  | some k =>
    refine .some (hall.filter fun a b hab => ?_)
    obtain ⟨_, _, _, _, p⟩ := SymBoth.pair hs hs' hd hd' hl
    obtain ⟨_, _, _, _, q⟩ := SymBoth.pair hs hs' hd hd' hab
    rw [region_iff hs hs' hd hd' hl hab, q.kind, p.idx, q.idx]

theorem blockDef_rel (h : Rel g g' x x') : Opt2 (SymBoth g g') ((symbolTable (Red.root g)).findBlockDef x.key)
    ((symbolTable (Red.root g')).findBlockDef x'.key) := by
  have hall := (symbols_iso hs hs' he).mem_both
  unfold SymbolTable.findBlockDef SymbolTable.findBlockRef
  refine (hall.find fun a b hab => by rw [hab.1.kind_eq, key_iff hs hs' hd hd' hab h]).bind fun l l' hl => ?_
  obtain ⟨_, _, _, _, p⟩ := SymBoth.pair hs hs' hd hd' hl
  refine ((blocks_rel hs hs' hd hd' he).find fun a b hab => ?_).bind fun a b hab => ?_
  · obtain ⟨s, s', q, q', h1, h2, _, h3, h4, _, _, h5⟩ := hab
    have := key_iff hs hs' hd hd' h1 h
    rw [h3, h4, h5, p.idx, key_comm x.key, this, key_comm x'.key]
  · obtain ⟨s, s', q, q', _, h2, _, _, _, h3, h4, _⟩ := hab
    rw [h3, h4]
    exact byKey_rel hs hs' hd hd' he h2

theorem defsOf_rel (h : Rel g g' x x') : All2 (SymBoth g g') (defsOf (symbolTable (Red.root g)) x.key) (defsOf (symbolTable (Red.root g')) x'.key) := by
  have h1 := localDef_rel hs hs' hd hd' he h
  have h2 := findDefs_rel hs hs' hd hd' he h
  have h3 := blockDef_rel hs hs' hd hd' he h
  unfold defsOf SymbolTable.definitions
  generalize (symbolTable (Red.root g)).findParamOrLocalDef x.key = a, (symbolTable (Red.root g')).findParamOrLocalDef x'.key = a' at h1
  generalize (symbolTable (Red.root g)).findDefs x.key = b, (symbolTable (Red.root g')).findDefs x'.key = b' at h2
  generalize (symbolTable (Red.root g)).findBlockDef x.key = c, (symbolTable (Red.root g')).findBlockDef x'.key = c' at h3
  cases h1 with
  | some h1 => exact .cons h1 .nil
  | none =>
    cases h2 with
    | some h2 => exact h2
    | none =>
      cases h3 with
      | some h3 => exact .cons h3 .nil
      | none => exact .nil

theorem blockRefs_rel (incl : Bool) {d d' : Sym} (h : SymBoth g g' d d') :
    All2 (SymBoth g g') ((symbolTable (Red.root g)).blockRefs incl d) ((symbolTable (Red.root g')).blockRefs incl d') := by
  unfold SymbolTable.blockRefs
  refine All2.append (by cases incl; exact .nil; exact .cons h .nil) ?_
  refine ((blocks_rel hs hs' hd hd' he).filter fun a b hab => ?_).filterMap fun a b hab => ?_
  · obtain ⟨s, s', q, q', h1, h2, _, _, _, h3, h4, h5⟩ := hab
    rw [h3, h4, key_comm q.key, key_iff hs hs' hd hd' h h2, key_comm q'.key]
  · obtain ⟨s, s', q, q', h1, _, _, h3, h4, _, _, _⟩ := hab
    obtain ⟨y, y', _, _, p⟩ := SymBoth.pair hs hs' hd hd' h1
    rw [h3, h4, (p.sym.inTree hs).2.1, (p.sym'.inTree hs').2.1]
    exact byKey_rel hs hs' hd hd' he p.rel

theorem references_rel (incl : Bool) (h : Rel g g' x x') : Opt2 (All2 (SymBoth g g')) ((symbolTable (Red.root g)).references incl x.key)
    ((symbolTable (Red.root g')).references incl x'.key) := by
  have hall := (symbols_iso hs hs' he).mem_both
  unfold SymbolTable.references
  refine (byKey_rel hs hs' hd hd' he h).bind fun c c' hc => ?_
  obtain ⟨y, y', _, _, p⟩ := SymBoth.pair hs hs' hd hd' hc
  have k1 : c.key = y.key := (p.sym.inTree hs).2.1
  have k2 : c'.key = y'.key := (p.sym'.inTree hs').2.1
  have hreg : ∀ a b, SymBoth g g' a b → a.kind = b.kind ∧ a.idx = b.idx ∧ (a.region == c.region) = (b.region == c'.region) := by
    intro a b hab
    obtain ⟨_, _, _, _, q⟩ := SymBoth.pair hs hs' hd hd' hab
    exact ⟨q.kind, q.idx, region_iff hs hs' hd hd' hc hab⟩
  rw [p.kind]
  split
  · exact .none
  · exact .some (blockRefs_rel hs hs' hd hd' he incl hc)
  · exact (blockDef_rel hs hs' hd hd' he h).map fun a b hab => blockRefs_rel hs hs' hd hd' he incl hab
  · rw [k1, k2]
    refine (localDef_rel hs hs' hd hd' he p.rel).map fun d d' hdd => hall.filter fun a b hab => ?_
    obtain ⟨_, _, _, _, q⟩ := SymBoth.pair hs hs' hd hd' hdd
    obtain ⟨e1, e2, e3⟩ := hreg a b hab
    rw [e1, e2, e3, p.idx, q.idx]
  · split
    · refine .some (hall.filter fun a b hab => ?_)
      obtain ⟨e1, e2, e3⟩ := hreg a b hab
      rw [e1, e2, e3, p.idx]
    · split
      · rw [k1, k2]
        refine (findDefs_rel hs hs' hd hd' he p.rel).map fun ds ds' hds => hall.filter fun a b hab => ?_
        obtain ⟨e1, e2, e3⟩ := hreg a b hab
        have : ∀ i : Idx, (ds.any fun d => i.isDefinedBy d.idx) = ds'.any fun d => i.isDefinedBy d.idx := by
          intro i
          clear hab e1 e2 e3
          induction hds with
          | nil => rfl
          | cons hab _ ih =>
            obtain ⟨_, _, _, _, q⟩ := SymBoth.pair hs hs' hd hd' hab
            rw [List.any_cons, List.any_cons, ih, q.idx]
        rw [e1, e2, e3, p.idx, this]
      · exact .none

theorem location_rel {s s' : Sym} (h : SymBoth g g' s s') {r r' : Range} (h1 : locationOf src (Red.root g) s = .done r)
    (h2 : locationOf src' (Red.root g') s' = .done r') : SameRange g g' src src' r r' := by
  obtain ⟨y, y', _, _, p⟩ := h.pair hs hs' hd hd'
  obtain ⟨j, p1, p2⟩ := (p.rel.twin hs hs' he p.inked').place
  exact ⟨_, _, .name p1 p2, (locationOf_iff hs p.sym).mp h1, (locationOf_iff hs' p.sym').mp h2⟩

end

theorem goto_locs (hs : Solid g) {u v : Text} {t : Tok} (hc : CursorOn (Red.root g) (bytes u) t) (hx : t.parent = some x)
    {o : Option (DefResp Range)} (ho : gotoDefinition (u ++ v) (Red.root g) (posAfter u) = .done o) :
    if isRefNode x.kind then Ans.mapL (locationOf (u ++ v) (Red.root g)) (defsOf (symbolTable (Red.root g)) x.key) = .done (locsOf o)
      else locsOf o = [] := by
  unfold gotoDefinition at ho
  rw [cursor_token hs hc] at ho
  simp only [Ans.bindO, Ans.bind, hx] at ho
  split
  · rename_i hk
    rw [if_pos hk] at ho
    unfold defsOf
    cases hdef : (symbolTable (Red.root g)).definitions x.key with
    | none => rw [hdef] at ho; cases ho; rfl
    | some r =>
      rw [hdef] at ho
      cases r with
      | scalar s =>
        simp only [locate, Option.elim, DefResp.toList, Ans.mapL] at ho ⊢
        cases hl : locationOf (u ++ v) (Red.root g) s with
        | panic => rw [hl] at ho; cases ho
        | done l => rw [hl] at ho; cases ho; rfl
      | array ss =>
        simp only [locate, Option.elim, DefResp.toList] at ho ⊢
        cases hl : Ans.mapL (locationOf (u ++ v) (Red.root g)) ss with
        | panic => rw [hl] at ho; cases ho
        | done l => rw [hl] at ho; cases ho; rfl
  · rename_i hk
    rw [if_neg hk] at ho
    cases ho; rfl

theorem refs_locs (hs : Solid g) {u v : Text} {t : Tok} (hc : CursorOn (Red.root g) (bytes u) t) (hx : t.parent = some x) {incl : Bool}
    {o : Option (List Range)} (ho : findReferences (u ++ v) (Red.root g) (posAfter u) incl = .done o) :
    if isRefToken t.kind then Ans.mapL (locationOf (u ++ v) (Red.root g)) (((symbolTable (Red.root g)).references incl x.key).getD []) = .done (o.getD [])
      else o.getD [] = [] := by
  unfold findReferences at ho
  rw [cursor_token hs hc] at ho
  simp only [Ans.bindO, Ans.bind, hx] at ho
  split
  · rename_i hk
    rw [if_pos hk] at ho
    cases hdef : (symbolTable (Red.root g)).references incl x.key with
    | none => rw [hdef] at ho; cases ho; rfl
    | some ss =>
      rw [hdef] at ho
      simp only [Option.getD_some] at ho ⊢
      cases hl : Ans.mapL (locationOf (u ++ v) (Red.root g)) ss with
      | panic => rw [hl] at ho; cases ho
      | done l => rw [hl] at ho; cases ho; rfl
  · rename_i hk
    rw [if_neg hk] at ho
    cases ho; rfl

theorem cursor_offset {u v : Text} {t : Tok} (hc : CursorOn (Red.root g) (bytes u) t) :
    ∀ off, offsetAt (u ++ v) (posAfter u) = some off → off ≤ (Red.root g).stop := by
  intro off h
  rw [offsetAt_eq] at h
  cases h
  have hw := Red.tokens_within hc.mem
  have ht := hc.touch
  unfold Tok.stop at hw
  omega

/-- The same answers. -/
theorem same_navigation {g g' : Green} (hs : Solid g) (hs' : Solid g') (hd : DerivedL g.children) (hd' : DerivedL g'.children)
    (he : strip g = strip g') {src src' dr dr' : Text} (ht : g.text ++ dr = src) (ht' : g'.text ++ dr' = src') :
    SameNavigation g g' src src' := by
  have hl := tokens_rel hs hs' he
  refine ⟨hl.length, fun i t t' h1 h2 u v u' v' hu hu' hc hc' => ?_⟩
  have hr : TokRel g g' t t' := hl.getElem i t t' h1 h2
  obtain ⟨x, x', p1, p2, hx⟩ := hr.parent hs hs'
  subst hu hu'
  obtain ⟨o, ho⟩ := gotoDefinition_ok hs ht (cursor_offset hc)
  obtain ⟨o', ho'⟩ := gotoDefinition_ok hs' ht' (cursor_offset hc')
  refine ⟨⟨o, o', ho, ho', ?_⟩, fun incl => ?_⟩
  · have a1 := goto_locs hs hc p1 ho
    have a2 := goto_locs hs' hc' p2 ho'
    rw [hx.kind] at a1
    split at a1
    · rename_i hk
      rw [if_pos hk] at a2
      have := mapL_rel (R := SymBoth g g') (S := SameRange g g' (u ++ v) (u' ++ v')) (f := locationOf (u ++ v) (Red.root g))
        (f' := locationOf (u' ++ v') (Red.root g')) (fun a b hab o o' k k' => location_rel hs hs' hd hd' he hab k k')
        (defsOf_rel hs hs' hd hd' he hx) a1 a2
      exact ⟨this.length.symm, this.getElem⟩
    · rename_i hk
      rw [if_neg hk] at a2
      rw [a1, a2]
      exact ⟨rfl, fun i a b h => by cases h⟩
  · obtain ⟨o, ho⟩ := findReferences_ok hs ht (cursor_offset hc) incl
    obtain ⟨o', ho'⟩ := findReferences_ok hs' ht' (cursor_offset hc') incl
    refine ⟨o, o', ho, ho', ?_⟩
    have a1 := refs_locs hs hc p1 ho
    have a2 := refs_locs hs' hc' p2 ho'
    rw [hr.kind] at a1
    split at a1
    · rename_i hk
      rw [if_pos hk] at a2
      have hrel := references_rel hs hs' hd hd' he incl hx
      have hrel : All2 (SymBoth g g') (((symbolTable (Red.root g)).references incl x.key).getD [])
          (((symbolTable (Red.root g')).references incl x'.key).getD []) := by
        generalize (symbolTable (Red.root g)).references incl x.key = a, (symbolTable (Red.root g')).references incl x'.key = b at hrel
        cases hrel with
        | none => exact .nil
        | some h => exact h
      have := mapL_rel (R := SymBoth g g') (S := SameRange g g' (u ++ v) (u' ++ v')) (f := locationOf (u ++ v) (Red.root g))
        (f' := locationOf (u' ++ v') (Red.root g')) (fun a b hab o o' k k' => location_rel hs hs' hd hd' he hab k k')
        hrel a1 a2
      exact ⟨this.length.symm, this.getElem⟩
    · rename_i hk
      rw [if_neg hk] at a2
      rw [a1, a2]
      exact ⟨rfl, fun i a b h => by cases h⟩

end Stripped
end Verif
