import Verif.Lemmas.SymbolKeys
/-!
Helper lemmas: the blocks a branch can target.
-/
set_option linter.unusedSimpArgs false
namespace Verif
open Spec

variable {g : Green}

theorem find?_congr' {p q : α → Bool} {l : List α} (h : ∀ x ∈ l, p x = q x) : l.find? p = l.find? q := by
  induction l with
  | nil => rfl
  | cons a l ih =>
    rw [List.find?_cons, List.find?_cons, h a (by simp), ih (fun x hx => h x (List.mem_cons_of_mem _ hx))]

/-- The blocks directly around one another, from a node outwards. -/
def run (r : Red) : List Red := r.ancestors.takeWhile fun a => isLabel a.kind

theorem run_label {r : Red} (h : isLabel r.kind = true) : run r = r :: match r.parent with | some p => run p | none => [] := by
  unfold run
  rw [Red.ancestors_eq, List.takeWhile_cons, if_pos h]
  cases r.parent <;> rfl

theorem run_other {r : Red} (h : isLabel r.kind = false) : run r = [] := by
  unfold run
  rw [Red.ancestors_eq, List.takeWhile_cons, if_neg (by rw [h]; decide)]

/-- The symbol of a block. -/
def blockSym (x p : Red) : Sym := ⟨x.key, x.green, p.key, .blockDef, ⟨some 0, nameOf x⟩⟩

theorem blockDef_sym {s : Sym} {x : Red} (h : IsSym g s x) (hk : s.kind = .blockDef) :
    isLabel x.kind = true ∧ ∃ p, x.parent = some p ∧ s = blockSym x p := by
  cases h with
  | module _ => cases hk
  | @field _ _ _ sp _ _ hsp => exfalso; revert hsp hk; cases x.kind <;> simp [fieldSpace] <;> rintro rfl <;> simp [defSym]
  | slot => exfalso; revert hk; dsimp only; split <;> simp
  | @ref _ _ sp => cases sp <;> cases hk
  | block _ hl hp => exact ⟨hl, _, hp, rfl⟩

theorem rank_label {k : Kind} (h : isLabel k = true) : rank k = 0 := by
  revert h; cases k <;> simp [isLabel, rank]

theorem label_nonempty {k : Kind} (h : isLabel k = true) : mayBeEmpty k = false := by
  revert h; cases k <;> simp [isLabel, mayBeEmpty]

/-- Walking up the recorded blocks visits the blocks directly around one another. -/
theorem blockChain_eq (hs : Solid g) (syms : List Sym) (h1 : ∀ s ∈ syms, ∃ x, IsSym g s x) :
    ∀ (fuel : Nat) (r : Red) (lvl : Nat), InTree g r → r.start < fuel →
      (∀ q ∈ r.ancestors, isLabel q.kind = true → ∀ p, q.parent = some p → blockSym q p ∈ syms) →
      blockChain syms fuel r.key lvl = ((run r).zipIdx lvl).map fun q => (q.1.key, ⟨some q.2, nameOf q.1⟩) := by
  intro fuel
  induction fuel with
  | zero => intro r lvl _ h; omega
  | succ fuel ih =>
    intro r lvl hr hlt hsy
    rw [blockChain]
    cases hl : isLabel r.kind with
    | false =>
      rw [run_other hl]
      split
      · rfl
      · rename_i p hp
        exfalso
        have h2 := List.find?_some hp
        simp only [Bool.and_eq_true, beq_iff_eq] at h2
        obtain ⟨x, hx⟩ := h1 _ (List.mem_of_find?_eq_some hp)
        obtain ⟨h3, q, h4, h5⟩ := blockDef_sym hx h2.1
        obtain ⟨t1, k1, _⟩ := hx.inTree hs
        have : r = x := InTree.key_inj hs hr t1 (by rw [← k1, h2.2]) (hx.nonempty hs)
        rw [this, h3] at hl; cases hl
    | true =>
      obtain ⟨p, hp⟩ := hr.parent_some hs (by intro h; rw [h] at hl; cases hl)
      have hm := hsy r r.self_mem_ancestors hl p hp
      have hfind : syms.find? (fun s => s.kind == .blockDef && s.key == r.key) = some (blockSym r p) := by
        have : (syms.find? fun s => s.kind == .blockDef && s.key == r.key).isSome := by
          rw [List.find?_isSome]; exact ⟨_, hm, by simp [blockSym]⟩
        obtain ⟨s, hs'⟩ := Option.isSome_iff_exists.mp this
        have h2 := List.find?_some hs'
        simp only [Bool.and_eq_true, beq_iff_eq] at h2
        obtain ⟨x, hx⟩ := h1 _ (List.mem_of_find?_eq_some hs')
        obtain ⟨y, hy⟩ := h1 _ hm
        rw [hs', (hx.key_inj hs hy h2.2).2]
      rw [hfind]
      dsimp only
      rw [run_label hl, hp]
      have hpt := hr.parent hp
      simp only [List.zipIdx_cons, List.map_cons, blockSym]
      congr 1
      cases hpl : isLabel p.kind with
      | false =>
        -- the walk stops at the parent
        rw [run_other hpl]
        cases fuel with
        | zero => rfl
        | succ fuel =>
          rw [blockChain]
          split
          · rfl
          · rename_i q hq
            exfalso
            have h2 := List.find?_some hq
            simp only [Bool.and_eq_true, beq_iff_eq] at h2
            obtain ⟨x, hx⟩ := h1 _ (List.mem_of_find?_eq_some hq)
            obtain ⟨h3, _⟩ := blockDef_sym hx h2.1
            obtain ⟨t1, k1, _⟩ := hx.inTree hs
            have : p = x := InTree.key_inj hs hpt.1 t1 (by rw [← k1, h2.2]) (hx.nonempty hs)
            rw [this, h3] at hpl; cases hpl
      | true =>
        have hlt' : p.start < r.start := by
          have hc := (Red.mem_children.mp hpt.2).1
          have h2 := hc.within.1
          rcases Nat.lt_or_eq_of_le h2 with h3 | h3
          · exact h3
          · have h4 := (hpt.1.frameOk hs).rank_lt hc h3.symm
            have e1 : p.self.kind = p.kind := rfl
            rw [e1, rank_label hpl] at h4
            omega
        refine ih p (lvl + 1) hpt.1 (by omega) ?_
        intro q hq
        exact hsy q (Red.ancestors_trans (Red.parent_mem_ancestors hp) hq)

/-! ### The recorded branch targets -/

/-- The targets recorded for a branch operand whose innermost block is `r`. -/
def entriesOf (x r : Red) : List BlockEntry :=
  (run r).zipIdx.map fun q => ⟨x.key, q.1.key, ⟨some q.2, nameOf q.1⟩⟩

/-- A branch operand with its innermost block. -/
def IsBranch (g : Green) (x r : Red) : Prop :=
  InTree g x ∧ RefersTo x .label ∧ scopeOf .label x = some r ∧ (indexOf x).isSome

theorem blockRef_sym {s : Sym} {x : Red} (h : IsSym g s x) (hk : s.kind = .blockRef) :
    ∃ r i, IsBranch g x r ∧ indexOf x = some i ∧ s = ⟨x.key, x.green, r.key, .blockRef, i.toIdx⟩ := by
  cases h with
  | module _ => cases hk
  | @field _ _ _ sp _ _ hsp => exfalso; revert hsp hk; cases x.kind <;> simp [fieldSpace] <;> rintro rfl <;> simp [defSym]
  | slot => exfalso; revert hk; dsimp only; split <;> simp
  | @ref _ r sp i hx hr hsc hi => cases sp <;> first | exact ⟨r, i, ⟨hx, hr, hsc, by rw [hi]; rfl⟩, hi, rfl⟩ | cases hk
  | block _ hl hp => cases hk

theorem refEntries_mem (hs : Solid g) : ∀ (l syms : List Sym), (∀ s ∈ syms ++ l, ∃ x, IsSym g s x) →
    (∀ s ∈ l, ∀ x, IsSym g s x → ∀ q ∈ x.ancestors, isLabel q.kind = true → ∀ p, q.parent = some p → blockSym q p ∈ syms) →
    ∃ xs : List (Red × Red), (∀ p ∈ xs, IsBranch g p.1 p.2) ∧ refEntries syms l = (xs.flatMap fun p => entriesOf p.1 p.2) ∧
      ∀ x r, IsBranch g x r → (∃ s ∈ l, IsSym g s x) → (x, r) ∈ xs := by
  intro l
  induction l with
  | nil => intro syms _ _; exact ⟨[], by simp, by simp [refEntries], by simp⟩
  | cons s l ih =>
    intro syms h1 h2
    rw [refEntries]
    obtain ⟨ys, y1, y2, y3⟩ := ih (syms ++ [s]) (by intro t ht; exact h1 t (by simpa using ht)) (by
      intro t ht x hx q hq hl p hp
      exact List.mem_append_left _ (h2 t (List.mem_cons_of_mem _ ht) x hx q hq hl p hp))
    obtain ⟨x, hx⟩ := h1 s (by simp)
    cases hk : (s.kind == SymKind.blockRef) with
    | true =>
      obtain ⟨r, i, hb, hi, hse⟩ := blockRef_sym hx (by simpa using hk)
      have hrm : r ∈ x.ancestors := List.mem_of_find?_eq_some hb.2.2.1
      have hrt := hb.1.ancestor hrm
      have hce : blockChain (syms ++ [s]) (s.region.start + 1) s.region 0 =
          ((run r).zipIdx 0).map fun q => (q.1.key, ⟨some q.2, nameOf q.1⟩) := by
        have e : s.region = r.key := by rw [hse]
        rw [e]
        refine blockChain_eq hs _ (by intro t ht; refine h1 t ?_; simp at ht ⊢; grind) _ r 0 hrt (by simp [Red.key]) ?_
        intro q hq hl p hp
        exact List.mem_append_left _ (h2 s (by simp) x hx q (Red.ancestors_trans hrm hq) hl p hp)
      refine ⟨(x, r) :: ys, ?_, ?_, ?_⟩
      · intro p hp
        rcases List.mem_cons.mp hp with rfl | hp
        · exact hb
        · exact y1 p hp
      · rw [y2, hce, List.flatMap_cons]
        have e : s.key = x.key := (hx.inTree hs).2.1
        simp only [if_true, entriesOf, List.map_map, e]
        rfl
      · intro x' r' hb' ⟨t, ht, hxt⟩
        rcases List.mem_cons.mp ht with rfl | ht
        · have := (hxt.key_inj hs hx rfl).1
          subst this
          have : r' = r := by
            have a := hb'.2.2.1; rw [hb.2.2.1] at a; exact (Option.some.inj a).symm
          subst this
          simp
        · exact List.mem_cons_of_mem _ (y3 x' r' hb' ⟨t, ht, hxt⟩)
    | false =>
      refine ⟨ys, y1, ?_, ?_⟩
      · rw [y2]; simp
      · intro x' r' hb' ⟨t, ht, hxt⟩
        rcases List.mem_cons.mp ht with rfl | ht
        · exfalso
          obtain ⟨i, hi⟩ := Option.isSome_iff_exists.mp hb'.2.2.2
          have := hxt.det hs (IsSym.ref hb'.1 hb'.2.1 hb'.2.2.1 hi)
          rw [this] at hk
          exact absurd hk (by simp [refSym])
        · exact y3 x' r' hb' ⟨t, ht, hxt⟩

theorem StrictlyBelow.of_mem_ancestors {q n : Red} (h : q ∈ n.ancestors) (hne : q ≠ n) : n.StrictlyBelow q := by
  obtain ⟨l, hl⟩ := Red.mem_ancestors.mp h
  refine ⟨l, ?_, hl⟩
  rintro rfl
  apply hne
  obtain ⟨f, up⟩ := q
  obtain ⟨f', up'⟩ := n
  simp at hl
  simp [hl]

theorem StrictlyBelow.asymm {m n : Red} (h1 : m.StrictlyBelow n) (h2 : n.StrictlyBelow m) : False := by
  obtain ⟨l, h3, h4⟩ := h1
  obtain ⟨k, h5, h6⟩ := h2
  have a := congrArg List.length h4
  have b := congrArg List.length h6
  simp only [List.length_append, List.length_cons] at a b
  have : l.length ≠ 0 := fun h => h3 (List.length_eq_zero_iff.mp h)
  omega

/-- In document order a node comes after the nodes around it. -/
theorem ancestor_before (hs : Solid g) {a b : List Red} {n q : Red} (hd : (Red.root g).descendants = a ++ n :: b)
    (he : mayBeEmpty n.kind = false) (hq : q ∈ n.ancestors) (hne : q ≠ n) : q ∈ a := by
  have hn : InTree g n := by unfold InTree; rw [hd]; simp
  have hqt : q ∈ a ++ n :: b := by rw [← hd]; exact hn.ancestor hq
  rcases List.mem_append.mp hqt with h | h
  · exact h
  · rcases List.mem_cons.mp h with h | h
    · exact absurd h hne
    · exfalso
      have hp := Red.descendants_preorder (Red.root g)
      rw [hd] at hp
      have := (List.pairwise_cons.mp (List.pairwise_append.mp hp).2.1).1 q h
      have hb := StrictlyBelow.of_mem_ancestors hq hne
      rcases this with h1 | h1
      · exact StrictlyBelow.asymm h1 hb
      · have := hn.within hq
        have := hn.lt_stop hs he
        omega

theorem symsOf_block {q p : Red} (hl : isLabel q.kind = true) (hp : q.parent = some p) (id : Nat) : blockSym q p ∈ symsOf id q := by
  have e : parentSymbol q 0 .blockDef = some (blockSym q p) := by unfold parentSymbol; rw [hp]; rfl
  unfold symsOf
  revert hl
  cases hk : q.kind <;> simp [isLabel, e]

theorem symsFrom_mem {l : List Red} {q : Red} {s : Sym} (hq : q ∈ l) (h : ∀ id, s ∈ symsOf id q) : ∀ id, s ∈ symsFrom id l := by
  obtain ⟨a, b, rfl⟩ := List.append_of_mem hq
  intro id
  rw [symsFrom_append, symsFrom]
  exact List.mem_append_right _ (List.mem_append_left _ (h _))

theorem blocksFrom_ok (hs : Solid g) : ∀ (l a : List Red), (Red.root g).descendants = a ++ l →
    ∃ xs : List (Red × Red), (∀ p ∈ xs, IsBranch g p.1 p.2) ∧
      blocksFrom (idAfter 0 a) (symsFrom 0 a) l = (xs.flatMap fun p => entriesOf p.1 p.2) ∧
      ∀ x r, IsBranch g x r → (∃ n ∈ l, n.kind = .PLAIN_INSTR ∧ x.parent = some n) → (x, r) ∈ xs := by
  intro l
  induction l with
  | nil => intro a _; exact ⟨[], by simp, by simp [blocksFrom], by simp⟩
  | cons n l ih =>
    intro a hd
    obtain ⟨ys, y1, y2, y3⟩ := ih (a ++ [n]) (by rw [hd]; simp)
    rw [idAfter_append, symsFrom_append] at y2
    simp only [idAfter, symsFrom, List.append_nil] at y2
    rw [blocksFrom, y2]
    have hn : InTree g n := by unfold InTree; rw [hd]; simp
    have hall : symsFrom 0 (Red.root g).descendants = symsFrom 0 a ++ (symsOf (idAfter 0 a) n ++ symsFrom (nextId (idAfter 0 a) n.kind) l) := by
      rw [hd, symsFrom_append, symsFrom]
    have hmem : ∀ s ∈ symsFrom 0 a ++ (symsOf (idAfter 0 a) n ++ symsFrom (nextId (idAfter 0 a) n.kind) l), ∃ x, IsSym g s x := by
      intro s hsm
      rw [← hall, ← symbolTable_symbols] at hsm
      exact (mem_symbols_iff hs).mp hsm
    by_cases hk : n.kind = .PLAIN_INSTR
    · rw [if_pos hk]
      have e : symsOf (idAfter 0 a) n = instrRefs n := by unfold symsOf; rw [hk]
      rw [e] at hmem
      obtain ⟨zs, z1, z2, z3⟩ := refEntries_mem hs (instrRefs n) (symsFrom 0 a)
        (fun s hsm => hmem s (by simp only [List.mem_append] at hsm ⊢; rcases hsm with h | h; exact .inl h; exact .inr (.inl h))) (by
          intro s hsm x hx q hq hl p hp
          obtain ⟨x', sp, r, i, h1, h2, h3, h4, h5⟩ := (mem_instrRefs hs hn hk).mp hsm
          have hx' : IsSym g s x' := by rw [h5]; exact .ref (hn.child h1) h2 h3 h4
          have := (hx.key_inj hs hx' rfl).1
          subst this
          rw [Red.ancestors_eq, Red.parent_of_child h1] at hq
          rcases List.mem_cons.mp hq with rfl | hq
          · have hok := operand_kind hs hn hk h1
            rw [hok] at hl; cases hl
          · have hne : q ≠ n := by rintro rfl; rw [hk] at hl; cases hl
            exact symsFrom_mem (ancestor_before hs hd (by rw [hk]; rfl) hq hne) (fun id => symsOf_block hl hp id) 0)
      refine ⟨zs ++ ys, ?_, by rw [z2]; simp, ?_⟩
      · intro p hp
        rcases List.mem_append.mp hp with h | h
        · exact z1 p h
        · exact y1 p h
      · intro x r hb ⟨m, hm, hmk, hmp⟩
        rcases List.mem_cons.mp hm with rfl | hm
        · refine List.mem_append_left _ (z3 x r hb ?_)
          obtain ⟨i, hi⟩ := Option.isSome_iff_exists.mp hb.2.2.2
          exact ⟨_, (mem_instrRefs hs hn hk).mpr ⟨x, .label, r, i, (hb.1.parent hmp).2, hb.2.1, hb.2.2.1, hi, rfl⟩,
            .ref hb.1 hb.2.1 hb.2.2.1 hi⟩
        · exact List.mem_append_right _ (y3 x r hb ⟨m, hm, hmk, hmp⟩)
    · rw [if_neg hk]
      refine ⟨ys, y1, by simp, ?_⟩
      intro x r hb ⟨m, hm, hmk, hmp⟩
      rcases List.mem_cons.mp hm with rfl | hm
      · exact absurd hmk hk
      · exact y3 x r hb ⟨m, hm, hmk, hmp⟩

/-- The recorded branch targets: for every branch operand the blocks around it, innermost first. -/
theorem blocks_eq (hs : Solid g) : ∃ xs : List (Red × Red), (∀ p ∈ xs, IsBranch g p.1 p.2) ∧
    (symbolTable (Red.root g)).blocks = (xs.flatMap fun p => entriesOf p.1 p.2) ∧
    ∀ x r, IsBranch g x r → (x, r) ∈ xs := by
  obtain ⟨xs, h1, h2, h3⟩ := blocksFrom_ok hs (Red.root g).descendants [] rfl
  refine ⟨xs, h1, by rw [symbolTable_blocks]; exact h2, ?_⟩
  intro x r hb
  rcases refersTo_elim hb.2.1 with ⟨p, t, k1, k2, _⟩ | ⟨p, k1, k2, _⟩
  · exact h3 x r hb ⟨p, (hb.1.parent k1).1, k2, k1⟩
  · exfalso
    revert k2
    unfold indexKind
    split <;> simp [refSym]

theorem mem_blocks (hs : Solid g) {b : BlockEntry} : b ∈ (symbolTable (Red.root g)).blocks ↔
    ∃ x r j q, IsBranch g x r ∧ (run r)[j]? = some q ∧ b = ⟨x.key, q.key, ⟨some j, nameOf q⟩⟩ := by
  obtain ⟨xs, h1, h2, h3⟩ := blocks_eq hs
  rw [h2, List.mem_flatMap]
  constructor
  · rintro ⟨⟨x, r⟩, hm, hb⟩
    obtain ⟨⟨q, j⟩, hq, rfl⟩ := List.mem_map.mp hb
    exact ⟨x, r, j, q, h1 _ hm, List.mem_zipIdx_iff_getElem?.mp hq, rfl⟩
  · rintro ⟨x, r, j, q, hb, hq, rfl⟩
    exact ⟨(x, r), h3 x r hb, List.mem_map.mpr ⟨(q, j), List.mem_zipIdx_iff_getElem?.mpr hq, rfl⟩⟩

theorem IsBranch.det {x r r' : Red} (h : IsBranch g x r) (h' : IsBranch g x r') : r = r' := by
  have a := h.2.2.1; rw [h'.2.2.1] at a; exact (Option.some.inj a).symm

theorem IsBranch.nonempty (hs : Solid g) {x r : Red} (h : IsBranch g x r) : mayBeEmpty x.kind = false := by
  rcases refersTo_kind hs h.1 h.2.1 with h | h <;> rw [h] <;> rfl

theorem IsBranch.key_inj (hs : Solid g) {x r x' r' : Red} (h : IsBranch g x r) (h' : IsBranch g x' r') (hk : x.key = x'.key) :
    x = x' ∧ r = r' := by
  have := InTree.key_inj hs h.1 h'.1 hk (h'.nonempty hs)
  subst this
  exact ⟨rfl, h.det h'⟩

/-- The first recorded target of a branch that satisfies a predicate. -/
theorem blocks_find (hs : Solid g) {x r : Red} (hb : IsBranch g x r) (p : Idx → Bool) :
    ((symbolTable (Red.root g)).blocks.find? fun b => x.key == b.ref && p b.idx) =
      (entriesOf x r).find? fun b => p b.idx := by
  obtain ⟨xs, h1, h2, h3⟩ := blocks_eq hs
  rw [h2]
  have hm := h3 x r hb
  clear h2 h3
  induction xs with
  | nil => cases hm
  | cons y ys ih =>
    rw [List.flatMap_cons, List.find?_append]
    have hy := h1 y (by simp)
    by_cases hk : x.key = y.1.key
    · obtain ⟨e1, e2⟩ := hb.key_inj hs hy hk
      have heq : ((entriesOf y.1 y.2).find? fun b => x.key == b.ref && p b.idx) = (entriesOf x r).find? fun b => p b.idx := by
        rw [← e1, ← e2]
        apply find?_congr'
        intro b hb'
        obtain ⟨q, _, rfl⟩ := List.mem_map.mp hb'
        simp
      rw [heq]
      cases hf : (entriesOf x r).find? fun b => p b.idx with
      | some b => rfl
      | none =>
        rw [Option.none_or, List.find?_eq_none]
        intro b hb' hc
        simp only [Bool.and_eq_true, beq_iff_eq] at hc
        obtain ⟨z, hz, hbz⟩ := List.mem_flatMap.mp hb'
        have hz' := h1 z (List.mem_cons_of_mem _ hz)
        obtain ⟨q, hq, rfl⟩ := List.mem_map.mp hbz
        obtain ⟨e3, e4⟩ := hb.key_inj hs hz' hc.1
        rw [List.find?_eq_none] at hf
        refine hf ⟨z.1.key, q.1.key, ⟨some q.2, nameOf q.1⟩⟩ ?_ hc.2
        rw [e3, e4]
        exact hbz
    · have hno : ((entriesOf y.1 y.2).find? fun b => x.key == b.ref && p b.idx) = none := by
        rw [List.find?_eq_none]
        intro b hb' hc
        simp only [Bool.and_eq_true, beq_iff_eq] at hc
        obtain ⟨q, _, rfl⟩ := List.mem_map.mp hb'
        exact hk hc.1
      rw [hno, Option.none_or]
      refine ih (fun p hp => h1 p (List.mem_cons_of_mem _ hp)) ?_
      rcases List.mem_cons.mp hm with h | h
      · exfalso; apply hk; rw [← h]
      · exact h

end Verif
