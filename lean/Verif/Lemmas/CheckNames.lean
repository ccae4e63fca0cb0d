import Verif.Lemmas.CheckRefs
import Verif.Spec.Names
import Verif.Lemmas.Denote
/-!
When a declaration is reported as duplicated, in terms of the declarations of the tree.
-/
set_option linter.unusedSimpArgs false
namespace Verif
open Spec

/-- Kind and range determine a node that has text. -/
theorem InTree.key_inj_pos {g : Green} (hs : Solid g) {m n : Red} (hm : InTree g m) (hn : InTree g n)
    (hk : m.key = n.key) (p1 : n.start < n.stop) : m = n := by
  simp only [Red.key, Key.mk.injEq] at hk
  obtain ⟨h1, h2, h3⟩ := hk
  rcases hm.nested hn with h | h | h | h | h
  · exact h
  · have := StrictlyBelow.rank_lt hs hm h h2; rw [h1] at this; omega
  · have := StrictlyBelow.rank_lt hs hn h h2.symm; rw [h1] at this; omega
  · omega
  · omega

/-- The symbols whose names are checked are those of the declarations directly in something. -/
theorem directlyIn_sym (hs : Solid g) {s : Sym} {x : Red} (h : IsSym g s x) (hk : isNamedKind s.kind = true) :
    ∃ sc, DirectlyIn g sc x ∧ s.region = sc.key ∧ s.idx.name = nameOf x := by
  cases h with
  | module => cases hk
  | @field m _ k sp h1 h2 h3 =>
    refine ⟨m, .field h1 (List.mem_filter.mp (List.mem_of_getElem? h2)).1 h3 ?_, rfl, rfl⟩
    rintro rfl; cases hk
  | @slot f _ j h1 h2 h3 => exact ⟨f, .slot h1 h2 (List.mem_of_getElem? h3), rfl, rfl⟩
  | @ref _ r sp => cases sp <;> cases hk
  | @block _ p h1 h2 h3 => exact ⟨p, .block h1 h2 h3, rfl, rfl⟩

theorem sym_directlyIn {sc x : Red} (h : DirectlyIn g sc x) :
    ∃ s, IsSym g s x ∧ isNamedKind s.kind = true ∧ s.region = sc.key ∧ s.idx.name = nameOf x := by
  cases h with
  | @field sp h1 h2 h3 h4 =>
    have hm : x ∈ fields sc := List.mem_filter.mpr ⟨h2, by rw [h3]; rfl⟩
    obtain ⟨k, hk⟩ := List.mem_iff_getElem?.mp hm
    refine ⟨_, .field h1 hk h3, ?_, rfl, rfl⟩
    have := fieldSpace_module h3
    cases sp <;> first | rfl | (cases this; done) | exact absurd rfl h4
  | slot h1 h2 h3 =>
    obtain ⟨j, hj⟩ := List.mem_iff_getElem?.mp h3
    refine ⟨_, .slot h1 h2 hj, ?_, rfl, rfl⟩
    dsimp only
    split <;> rfl
  | block h1 h2 h3 => exact ⟨_, .block h1 h2 h3, rfl, rfl, rfl⟩

theorem Spec.DirectlyIn.tree (hs : Solid g) {sc x : Red} (h : DirectlyIn g sc x) :
    InTree g sc ∧ InTree g x ∧ sc.start < sc.stop := by
  obtain ⟨s, h1, _, h2, _⟩ := sym_directlyIn h
  have hx := (h1.inTree hs).1
  have hp := hx.lt_stop hs (h1.nonempty hs ▸ by rw [h1.nonempty hs])
  cases h with
  | field k1 k2 k3 k4 =>
    have := (InTree.root g).child k1
    exact ⟨this, hx, this.lt_stop hs (by rw [root_children hs k1]; rfl)⟩
  | slot k1 k2 k3 =>
    have k1 : InTree g sc := k1
    exact ⟨k1, hx, k1.lt_stop hs (by rw [k2]; rfl)⟩
  | block k1 k2 k3 =>
    have hw := InTree.within hx (Red.parent_mem_ancestors k3)
    exact ⟨(hx.parent k3).1, hx, by omega⟩

/-- A declaration is directly in one node. -/
theorem Spec.DirectlyIn.unique (hs : Solid g) {sc sc' x : Red} (h : DirectlyIn g sc x) (h' : DirectlyIn g sc' x) : sc = sc' := by
  obtain ⟨s, h1, _, h2, _⟩ := sym_directlyIn h
  obtain ⟨s', h1', _, h2', _⟩ := sym_directlyIn h'
  have := h1.det hs h1'
  subst this
  exact InTree.key_inj_pos hs (h.tree hs).1 (h'.tree hs).1 (h2.symm.trans h2') (h'.tree hs).2.2

theorem identRange_eq (hs : Solid g) {s : Sym} {x : Red} (h : IsSym g s x) {n : Text} (hn : nameOf x = some n) :
    identRange (Red.root g) s = .done (nameRange x) := by
  unfold identRange
  obtain ⟨h1, h2, _⟩ := h.inTree hs
  rw [h2, h1.toNode hs (h.nonempty hs)]
  simp only [Ans.ofOption, Ans.bind]
  unfold nameOf Red.token at hn
  unfold nameRange Red.token
  cases ht : x.childToks.find? fun t => t.kind == .IDENT with
  | none => rw [ht] at hn; cases hn
  | some t => rfl

/-- The declarations filed under the same name. -/
theorem mem_namesakes (hs : Solid g) {sc : Red} {x : Red} (h : DirectlyIn g sc x) {n : Text} {o : Sym} :
    o ∈ (symbolTable (Red.root g)).namesakes n sc.key ↔ ∃ y, IsSym g o y ∧ DirectlyIn g sc y ∧ nameOf y = some n := by
  unfold SymbolTable.namesakes
  rw [List.mem_filter, mem_symbols_iff hs]
  simp only [Bool.and_eq_true, beq_iff_eq]
  constructor
  · rintro ⟨⟨y, hy⟩, ⟨h1, h2⟩, h3⟩
    obtain ⟨sc', h4, h5, h6⟩ := directlyIn_sym hs hy h1
    have := InTree.key_inj_pos hs (h4.tree hs).1 (h.tree hs).1 (h5.symm.trans h3) (h.tree hs).2.2
    subst this
    exact ⟨y, hy, h4, by rw [← h6, h2]⟩
  · rintro ⟨y, hy, h1, h2⟩
    obtain ⟨s, h3, h4, h5, h6⟩ := sym_directlyIn h1
    have := h3.det hs hy
    subst this
    exact ⟨⟨y, hy⟩, ⟨h4, h6.trans h2⟩, h5⟩

theorem two_of_length {R : α → α → Prop} {l : List α} (h : l.Pairwise R) (hr : ∀ a, ¬ R a a) :
    1 < l.length ↔ ∃ a ∈ l, ∃ b ∈ l, a ≠ b := by
  match l, h with
  | [], _ => simp
  | [a], _ => simp
  | a :: b :: l, h =>
    simp only [List.length_cons]
    refine ⟨fun _ => ⟨a, by simp, b, by simp, ?_⟩, fun _ => by omega⟩
    rintro rfl
    exact hr a (List.rel_of_pairwise_cons h (by simp))

/-- The first pass reports a declaration if there is another one of the same name. -/
theorem checkScope_iff (hs : Solid g) {sc x : Red} {s : Sym} {n : Text} (h : DirectlyIn g sc x) (hx : IsSym g s x)
    (hn : nameOf x = some n) {l : List RawDiag} (hl : checkScope (symbolTable (Red.root g)) (Red.root g) s = .done l) :
    (∃ d, d ∈ l) ↔ ∃ y, y ≠ x ∧ DirectlyIn g sc y ∧ nameOf y = some n := by
  obtain ⟨s', k1, k2, k3, k4⟩ := sym_directlyIn h
  have := k1.det hs hx; subst this
  have hmem : ∀ {d}, d ∈ l → 1 < ((symbolTable (Red.root g)).namesakes n sc.key).length := by
    intro d hd
    obtain ⟨_, name, h1, h2, _⟩ := (checkScope_elim hl).mp hd
    rw [k4, hn] at h1; cases h1
    rw [k3] at h2; exact h2
  have hex : 1 < ((symbolTable (Red.root g)).namesakes n sc.key).length → ∃ d, d ∈ l := by
    intro hlen
    unfold checkScope at hl
    rw [if_pos k2] at hl
    simp only [k4, hn, k3, if_pos hlen] at hl
    obtain ⟨d, _, hl⟩ := bind_done hl
    cases hl
    exact ⟨d, by simp⟩
  have : (∃ d, d ∈ l) ↔ 1 < ((symbolTable (Red.root g)).namesakes n sc.key).length := ⟨fun ⟨_, hd⟩ => hmem hd, hex⟩
  have hnn : ((symbolTable (Red.root g)).namesakes n sc.key).Pairwise fun a b => a.key ≠ b.key := (symbols_distinct hs).filter _
  rw [this, two_of_length (R := fun a b : Sym => a.key ≠ b.key) hnn (fun a h => h rfl)]
  constructor
  · rintro ⟨a, ha, b, hb, hne⟩
    obtain ⟨y, hy, h1, h2⟩ := (mem_namesakes hs h).mp ha
    obtain ⟨z, hz, h3, h4⟩ := (mem_namesakes hs h).mp hb
    by_cases hyx : y = x
    · refine ⟨z, ?_, h3, h4⟩
      rintro rfl
      subst hyx
      exact hne (hy.det hs hz)
    · exact ⟨y, hyx, h1, h2⟩
  · rintro ⟨y, hne, h1, h2⟩
    obtain ⟨o, h3, _⟩ := sym_directlyIn h1
    refine ⟨s', (mem_namesakes hs h).mpr ⟨x, k1, h, hn⟩, o, (mem_namesakes hs h).mpr ⟨y, h3, h1, h2⟩, ?_⟩
    rintro rfl
    exact hne ((k1.key_inj hs h3 rfl).1.symm)

theorem dupDiag_eq (hs : Solid g) {x : Red} {s : Sym} {n m : Text} (hx : IsSym g s x) (hn : nameOf x = some n) {ss : List Sym}
    {d : RawDiag} (h : dupDiag (Red.root g) s m ss = .done d) : d.msg = .duplicated m ∧ (d.start, d.stop) = nameRange x ∧
      ∀ p, p ∈ d.related ↔ ∃ o ∈ ss, identRange (Red.root g) o = .done p := by
  unfold dupDiag at h
  rw [identRange_eq hs hx hn] at h
  obtain ⟨r, h1, h⟩ := bind_done h
  cases h1
  obtain ⟨rs, h2, h⟩ := bind_done h
  cases h
  exact ⟨rfl, rfl, fun p => by simp only [mapL_mem h2]⟩

/-- What the first pass reports for a declaration. -/
theorem checkScope_diag (hs : Solid g) {sc x : Red} {s : Sym} {n : Text} (h : DirectlyIn g sc x) (hx : IsSym g s x)
    (hn : nameOf x = some n) {l : List RawDiag} (hl : checkScope (symbolTable (Red.root g)) (Red.root g) s = .done l)
    {d : RawDiag} (hd : d ∈ l) : d.msg = .duplicated n ∧ (d.start, d.stop) = nameRange x ∧
      ∀ p, p ∈ d.related ↔ ∃ y, y ≠ x ∧ DirectlyIn g sc y ∧ nameOf y = some n ∧ p = nameRange y := by
  obtain ⟨s', k1, k2, k3, k4⟩ := sym_directlyIn h
  have := k1.det hs hx; subst this
  obtain ⟨_, name, h1, _, h3⟩ := (checkScope_elim hl).mp hd
  rw [k4, hn] at h1; cases h1
  obtain ⟨e1, e2, e3⟩ := dupDiag_eq hs k1 hn h3
  refine ⟨e1, e2, fun p => (e3 p).trans ?_⟩
  rw [k3]
  constructor
  · rintro ⟨o, ho, hp⟩
    obtain ⟨ho1, ho2⟩ := List.mem_filter.mp ho
    obtain ⟨y, hy, h4, h5⟩ := (mem_namesakes hs h).mp ho1
    refine ⟨y, ?_, h4, h5, ?_⟩
    · rintro rfl
      have := hy.det hs k1
      subst this
      simp [Sym.same] at ho2
    · rw [identRange_eq hs hy h5] at hp
      cases hp; rfl
  · rintro ⟨y, hne, h4, h5, rfl⟩
    obtain ⟨o, h6, _⟩ := sym_directlyIn h4
    refine ⟨o, List.mem_filter.mpr ⟨(mem_namesakes hs h).mpr ⟨y, h6, h4, h5⟩, ?_⟩, identRange_eq hs h6 h5⟩
    simp only [Sym.same, Bool.not_eq_true', Bool.and_eq_false_iff, beq_eq_false_iff_ne]
    exact .inl fun he => hne (h6.key_inj hs k1 he).1

/-- The second pass is about blocks. -/
theorem checkLabel_block (hs : Solid g) {x : Red} {s : Sym} (hx : IsSym g s x) (hb : isLabel x.kind = false) {l : List RawDiag}
    (hl : checkLabel (symbolTable (Red.root g)) (Red.root g) s = .done l) : l = [] := by
  rw [List.eq_nil_iff_forall_not_mem]
  intro d hd
  have := (blockDef_sym hx ((checkLabel_elim hl).mp hd).1).1
  rw [hb] at this; cases this

/-! ### Labels -/

/-- Walking up the symbols visits the blocks directly around one another. -/
theorem outerNamesakes_eq (hs : Solid g) (n : Text) : ∀ (fuel : Nat) (r : Red), InTree g r → r.start < fuel →
    (symbolTable (Red.root g)).outerNamesakes n fuel r.key =
      ((run r).filter fun q => nameOf q == some n).filterMap fun q => q.parent.map (blockSym q) := by
  intro fuel
  induction fuel with
  | zero => intro r _ h; omega
  | succ fuel ih =>
    intro r hr hlt
    have stop : ∀ (r : Red), InTree g r → isLabel r.kind = false → ∀ fuel,
        (symbolTable (Red.root g)).outerNamesakes n fuel r.key = [] := by
      intro r hr hl fuel
      cases fuel with
      | zero => rfl
      | succ fuel =>
        rw [SymbolTable.outerNamesakes]
        split
        · rfl
        · rename_i p hp
          rw [if_neg]
          intro hk
          have h2 := List.find?_some (p := fun s : Sym => s.key == r.key) hp
          obtain ⟨x, hx⟩ := (mem_symbols_iff hs).mp (List.mem_of_find?_eq_some hp)
          obtain ⟨h3, _⟩ := blockDef_sym hx (by simpa using hk)
          obtain ⟨t1, k1, _⟩ := hx.inTree hs
          have : r = x := InTree.key_inj hs hr t1 (by rw [← k1]; simpa using (beq_iff_eq.mp h2).symm) (hx.nonempty hs)
          rw [this, h3] at hl; cases hl
    cases hl : isLabel r.kind with
    | false => rw [run_other hl, stop r hr hl]; rfl
    | true =>
      obtain ⟨p, hp⟩ := hr.parent_some hs (by intro h; rw [h] at hl; cases hl)
      have hby : (symbolTable (Red.root g)).byKey r.key = some (blockSym r p) :=
        byKey_eq hs ((mem_symbols_iff hs).mpr ⟨r, .block hr hl hp⟩)
      rw [SymbolTable.outerNamesakes, hby]
      simp only [blockSym, beq_self_eq_true, if_true]
      have hrec : (symbolTable (Red.root g)).outerNamesakes n fuel p.key =
          ((run p).filter fun q => nameOf q == some n).filterMap fun q => q.parent.map (blockSym q) := by
        cases hpl : isLabel p.kind with
        | false => rw [run_other hpl, stop p (hr.parent hp).1 hpl]; rfl
        | true =>
          have hw := InTree.within hr (Red.parent_mem_ancestors hp)
          refine ih p (hr.parent hp).1 ?_
          have hne : p.start ≠ r.start := by
            intro he
            have := StrictlyBelow.rank_lt hs hr (StrictlyBelow.of_mem_ancestors (Red.parent_mem_ancestors hp) (by
              rintro rfl
              have := congrArg (fun r : Option Red => r.map (·.up.length)) hp
              cases hu : p.up with
              | nil => simp [Red.parent, hu] at hp
              | cons f fs => simp [Red.parent, hu] at this)) he.symm
            rw [rank_label hl, rank_label hpl] at this
            omega
          omega
      rw [hrec, run_label hl, hp]
      dsimp only
      by_cases hnm : nameOf r = some n
      · rw [List.filter_cons_of_pos (by simp [hnm]), List.filterMap_cons_some (by rw [hp]; rfl)]
        simp [hnm, blockSym]
      · rw [List.filter_cons_of_neg (by simp [hnm])]
        simp [hnm]

theorem mem_outer (hs : Solid g) {n : Text} {p : Red} (hp : InTree g p) {o : Sym} :
    o ∈ (symbolTable (Red.root g)).outerNamesakes n (p.key.start + 1) p.key ↔
      ∃ y, IsSym g o y ∧ y ∈ run p ∧ nameOf y = some n := by
  rw [outerNamesakes_eq hs n _ p hp (by show p.start < p.start + 1; omega), List.mem_filterMap]
  constructor
  · rintro ⟨q, hq, h1⟩
    obtain ⟨h2, h3⟩ := List.mem_filter.mp hq
    obtain ⟨h4, h5, _, r, h6⟩ := run_mem hs hp h2
    rw [h6] at h1
    cases h1
    exact ⟨q, .block h4 h5 h6, h2, by simpa using h3⟩
  · rintro ⟨q, h1, h2, h3⟩
    obtain ⟨h4, h5, _, r, h6⟩ := run_mem hs hp h2
    have := h1.det hs (.block h4 h5 h6)
    subst this
    exact ⟨q, List.mem_filter.mpr ⟨h2, by simpa using h3⟩, by rw [h6]; rfl⟩

theorem label_sym_kind {s : Sym} {x : Red} (hs : Solid g) (h : IsSym g s x) (hl : isLabel x.kind = true) : s.kind = .blockDef := by
  obtain ⟨p, hp⟩ := (h.inTree hs).1.parent_some hs (by intro h; rw [h] at hl; cases hl)
  have := h.det hs (.block (h.inTree hs).1 hl hp)
  rw [this]

theorem mem_inner (hs : Solid g) {n : Text} {x : Red} {s : Sym} (hx : IsSym g s x) {o : Sym} :
    o ∈ (symbolTable (Red.root g)).innerNamesakes s n ↔
      ∃ y, IsSym g o y ∧ isLabel y.kind = true ∧ x ∈ y.ancestors ∧ y ≠ x ∧ nameOf y = some n := by
  unfold SymbolTable.innerNamesakes
  rw [List.mem_filter, mem_symbols_iff hs]
  simp only [Bool.and_eq_true, decide_eq_true_eq, beq_iff_eq]
  constructor
  · rintro ⟨⟨y, hy⟩, ⟨⟨h1, h2⟩, h3⟩, h4⟩
    obtain ⟨h5, p, h6, h7⟩ := blockDef_sym hy h2
    have hne : y ≠ x := by
      rintro rfl
      have := hy.det hs hx
      subst this
      simp [Sym.same] at h1
    refine ⟨y, hy, h5, ?_, hne, by rw [h7] at h3; exact h3⟩
    rw [(hx.inTree hs).2.1, (hy.inTree hs).2.1] at h4
    have h4 : x.start ≤ y.start ∧ y.stop ≤ x.stop := h4
    have hlt := (hy.inTree hs).1.lt_stop hs (hy.nonempty hs)
    rcases InTree.nested (hx.inTree hs).1 (hy.inTree hs).1 with h8 | h8 | h8 | h8 | h8
    · exact absurd h8.symm hne
    · exfalso
      have hw := StrictlyBelow.within h8 (inTree_iff.mp (hx.inTree hs).1)
      exact hne (range_inj hs (hy.inTree hs).1 (hx.inTree hs).1 (hy.childToks hs) (hx.childToks hs)
        (Prod.ext (by show y.start = x.start; omega) (by show y.stop = x.stop; omega)))
    · exact StrictlyBelow.mem_ancestors h8
    · omega
    · omega
  · rintro ⟨y, hy, h1, h2, h3, h4⟩
    have hk := label_sym_kind hs hy h1
    obtain ⟨_, p, _, h7⟩ := blockDef_sym hy hk
    refine ⟨⟨y, hy⟩, ⟨⟨?_, hk⟩, by rw [h7]; exact h4⟩, ?_⟩
    · simp only [Sym.same, Bool.not_eq_true', Bool.and_eq_false_iff, beq_eq_false_iff_ne]
      exact .inl fun he => h3 (hy.key_inj hs hx he).1
    · rw [(hx.inTree hs).2.1, (hy.inTree hs).2.1]
      exact InTree.within (hy.inTree hs).1 h2

/-- The blocks of the second pass are listed once. -/
theorem found_distinct (hs : Solid g) {n : Text} {x p : Red} {s : Sym} (hx : IsSym g s x) (hp : x.parent = some p) :
    ((symbolTable (Red.root g)).outerNamesakes n (p.key.start + 1) p.key ++
      (symbolTable (Red.root g)).innerNamesakes s n).Pairwise fun a b => a.key ≠ b.key := by
  have hpt := ((hx.inTree hs).1.parent hp).1
  rw [List.pairwise_append]
  refine ⟨?_, (symbols_distinct hs).filter _, ?_⟩
  · rw [outerNamesakes_eq hs n _ p hpt (by show p.start < p.start + 1; omega), List.pairwise_filterMap]
    have h1 : (run p).Pairwise (· ≠ ·) := (ancestors_ne (p.self :: p.up)).sublist (List.takeWhile_sublist _)
    refine (List.Pairwise.filter _ h1).imp_of_mem ?_
    intro a b ha hb hne u hu v hv he
    obtain ⟨a1, a2, _, q, a4⟩ := run_mem hs hpt (List.mem_filter.mp ha).1
    obtain ⟨b1, b2, _, r, b4⟩ := run_mem hs hpt (List.mem_filter.mp hb).1
    rw [a4] at hu; rw [b4] at hv
    cases hu; cases hv
    exact hne (IsSym.key_inj hs (.block a1 a2 a4) (.block b1 b2 b4) he).1
  · intro a ha b hb he
    obtain ⟨y, h1, h2, _⟩ := (mem_outer hs hpt).mp ha
    obtain ⟨z, h3, _, h4, h5, _⟩ := (mem_inner hs hx).mp hb
    have := (h1.key_inj hs h3 he).1
    subst this
    have h6 : y ∈ x.ancestors := Red.ancestors_trans (Red.parent_mem_ancestors hp) (run_mem hs hpt h2).2.2.1
    exact StrictlyBelow.asymm (StrictlyBelow.of_mem_ancestors h6 h5) (StrictlyBelow.of_mem_ancestors h4 (Ne.symm h5))

/-- The second pass reports a block if two other blocks of the same name are around or inside it. -/
theorem checkLabel_iff (hs : Solid g) {x : Red} {s : Sym} {n : Text} (hx : IsSym g s x) (hb : isLabel x.kind = true)
    (hn : nameOf x = some n) {l : List RawDiag} (hl : checkLabel (symbolTable (Red.root g)) (Red.root g) s = .done l) :
    (∃ d, d ∈ l) ↔ ∃ y z, y ≠ z ∧ Nested g x y ∧ Nested g x z ∧ nameOf y = some n ∧ nameOf z = some n := by
  obtain ⟨_, p, hp, rfl⟩ := blockDef_sym hx (label_sym_kind hs hx hb)
  have hpt := ((hx.inTree hs).1.parent hp).1
  have key : (∃ d, d ∈ l) ↔ 1 < ((symbolTable (Red.root g)).outerNamesakes n (p.key.start + 1) p.key ++
      (symbolTable (Red.root g)).innerNamesakes (blockSym x p) n).length := by
    constructor
    · rintro ⟨d, hd⟩
      obtain ⟨_, name, h1, h2, _⟩ := (checkLabel_elim hl).mp hd
      have h1 : nameOf x = some name := h1
      rw [hn] at h1; cases h1
      exact h2
    · intro hlen
      unfold checkLabel at hl
      simp only [blockSym, hn, beq_self_eq_true, if_true] at hl hlen
      rw [if_pos hlen] at hl
      obtain ⟨d, _, hl⟩ := bind_done hl
      cases hl
      exact ⟨d, by simp⟩
  have hmem : ∀ o, o ∈ ((symbolTable (Red.root g)).outerNamesakes n (p.key.start + 1) p.key ++
      (symbolTable (Red.root g)).innerNamesakes (blockSym x p) n) ↔ ∃ y, IsSym g o y ∧ Nested g x y ∧ nameOf y = some n := by
    intro o
    rw [List.mem_append, mem_outer hs hpt, mem_inner hs hx]
    constructor
    · rintro (⟨y, h1, h2, h3⟩ | ⟨y, h1, h2, h3, h4, h5⟩)
      · exact ⟨y, h1, ⟨(run_mem hs hpt h2).2.1, .inl ⟨p, hp, h2⟩⟩, h3⟩
      · exact ⟨y, h1, ⟨h2, .inr ⟨(h1.inTree hs).1, h3, h4⟩⟩, h5⟩
    · rintro ⟨y, h1, ⟨h2, h3 | h3⟩, h4⟩
      · obtain ⟨p', h5, h6⟩ := h3
        rw [hp] at h5; cases h5
        exact .inl ⟨y, h1, h6, h4⟩
      · exact .inr ⟨y, h1, h2, h3.2.1, h3.2.2, h4⟩
  rw [key, two_of_length (found_distinct hs hx hp) (fun a h => h rfl)]
  constructor
  · rintro ⟨a, ha, b, hb, hne⟩
    obtain ⟨y, h1, h2, h3⟩ := (hmem a).mp ha
    obtain ⟨z, h4, h5, h6⟩ := (hmem b).mp hb
    refine ⟨y, z, ?_, h2, h5, h3, h6⟩
    rintro rfl
    exact hne (h1.det hs h4)
  · rintro ⟨y, z, hne, h1, h2, h3, h4⟩
    have hsym : ∀ {y}, Nested g x y → ∃ o, IsSym g o y := by
      rintro y ⟨h5, h6⟩
      have hy : InTree g y := by
        rcases h6 with ⟨p', h7, h8⟩ | h6
        · exact ((hx.inTree hs).1.parent h7).1.ancestor (run_mem hs ((hx.inTree hs).1.parent h7).1 h8).2.2.1
        · exact h6.1
      obtain ⟨q, hq⟩ := hy.parent_some hs (by intro h; rw [h] at h5; cases h5)
      exact ⟨_, .block hy h5 hq⟩
    obtain ⟨a, ha⟩ := hsym h1
    obtain ⟨b, hb⟩ := hsym h2
    refine ⟨a, (hmem a).mpr ⟨y, ha, h1, h3⟩, b, (hmem b).mpr ⟨z, hb, h2, h4⟩, ?_⟩
    rintro rfl
    exact hne (ha.key_inj hs hb rfl).1

/-- What the second pass reports. -/
theorem checkLabel_diag (hs : Solid g) {x : Red} {s : Sym} {n : Text} (hx : IsSym g s x) (hb : isLabel x.kind = true)
    (hn : nameOf x = some n) {l : List RawDiag} (hl : checkLabel (symbolTable (Red.root g)) (Red.root g) s = .done l)
    {d : RawDiag} (hd : d ∈ l) : d.msg = .duplicated n ∧ (d.start, d.stop) = nameRange x := by
  obtain ⟨_, p, hp, rfl⟩ := blockDef_sym hx (label_sym_kind hs hx hb)
  obtain ⟨_, name, h1, _, h3⟩ := (checkLabel_elim hl).mp hd
  have h1 : nameOf x = some name := h1
  rw [hn] at h1; cases h1
  obtain ⟨e1, e2, _⟩ := dupDiag_eq hs hx hn h3
  exact ⟨e1, e2⟩

/-- The symbol and name of what is reported as duplicated. -/
theorem mem_dups (hs : Solid g) {src : Text} {errs : List Err} {ds : List Diag}
    (hd : diagnostics src (Red.root g) errs = .done ds) {d : Diag} {n : Text} (hm : d.msg = .duplicated n) :
    d ∈ ds ↔ ∃ r, toDiag src r = .done d ∧ ∃ s x, IsSym g s x ∧
      ((∃ l, checkScope (symbolTable (Red.root g)) (Red.root g) s = .done l ∧ r ∈ l) ∨
        ∃ l, checkLabel (symbolTable (Red.root g)) (Red.root g) s = .done l ∧ r ∈ l) := by
  obtain ⟨nodes, dups, _, hdup, _⟩ := diagnostics_elim hd
  rw [mem_diagnostics hd]
  constructor
  · rintro ⟨r, h1, h2⟩
    refine ⟨r, h1, ?_⟩
    have hc : r.msg.checker = .dup := by rw [← (toDiag_msg h1).1, hm]; rfl
    rcases h2 with ⟨e, _, rfl⟩ | ⟨n, _, l, h3, h4⟩ | h3 | ⟨l, h3, h4⟩
    · cases hc
    · rcases checkNode_msg h3 h4 with h5 | h5 | h5 <;> rw [h5.1] at hc <;> cases hc
    · rw [checkUndef_msg h3] at hc; cases hc
    · rcases (checkDup_elim h3 r).mp h4 with ⟨s, hs1, l, h5⟩ | ⟨s, hs1, l, h5⟩
      · obtain ⟨x, hx⟩ := (mem_symbols_iff hs).mp hs1
        exact ⟨s, x, hx, .inl ⟨l, h5⟩⟩
      · obtain ⟨x, hx⟩ := (mem_symbols_iff hs).mp hs1
        exact ⟨s, x, hx, .inr ⟨l, h5⟩⟩
  · rintro ⟨r, h1, s, x, hx, h2⟩
    refine ⟨r, h1, .inr (.inr (.inr ⟨dups, hdup, (checkDup_elim hdup r).mpr ?_⟩))⟩
    have hs1 := (mem_symbols_iff hs).mpr ⟨x, hx⟩
    rcases h2 with ⟨l, h3, h4⟩ | ⟨l, h3, h4⟩
    · exact .inl ⟨s, hs1, l, h3, h4⟩
    · exact .inr ⟨s, hs1, l, h3, h4⟩

/-- Both passes are answered for every symbol. -/
theorem dups_done {src : Text} {root : Red} {errs : List Err} {ds : List Diag}
    (hd : diagnostics src root errs = .done ds) {s : Sym} (hm : s ∈ (symbolTable root).symbols) :
    (∃ l, checkScope (symbolTable root) root s = .done l ∧ ∀ r ∈ l, ∃ d ∈ ds, toDiag src r = .done d) ∧
      ∃ l, checkLabel (symbolTable root) root s = .done l ∧ ∀ r ∈ l, ∃ d ∈ ds, toDiag src r = .done d := by
  obtain ⟨nodes, dups, _, hdup, h3⟩ := diagnostics_elim hd
  have hall : ∀ r ∈ dups, ∃ d ∈ ds, toDiag src r = .done d := fun r hr => mapL_all h3 r (by simp [hr])
  have hdup' := hdup
  unfold checkDup at hdup
  obtain ⟨a, ha, hdup⟩ := bind_done hdup
  obtain ⟨b, hb, hdup⟩ := bind_done hdup
  cases hdup
  obtain ⟨l, _, hl⟩ := mapL_all ha s hm
  obtain ⟨l', _, hl'⟩ := mapL_all hb s hm
  exact ⟨⟨l, hl, fun r hr => hall r ((checkDup_elim hdup' r).mpr (.inl ⟨s, hm, l, hl, hr⟩))⟩,
    l', hl', fun r hr => hall r ((checkDup_elim hdup' r).mpr (.inr ⟨s, hm, l', hl', hr⟩))⟩

end Verif
