import Verif.Lemmas.Rename
import Verif.Spec.Names
/-!
Helper lemmas: the edits of renaming a block or a branch operand.
-/
namespace Verif
open Spec
variable {g : Green}

/-- A symbol of a module or function that is not a label has its home there. -/
theorem sym_home_of_region (hs : Solid g) {S : Sym} {s y : Red} (h : IsSym g S y) (hp : plainSym S.kind = true)
    (hst : InTree g s) (hr : S.region = s.key) : ∃ sp, sp ≠ .label ∧ Home g s sp y := by
  cases h with
  | module _ => cases hp
  | @field m _ k sp hm hf hsp =>
    have : s = m := InTree.key_inj hs hst ((InTree.root g).child hm) hr.symm (by rw [root_children hs hm]; rfl)
    subst this
    refine ⟨sp, ?_, .field hm ?_⟩
    · have := fieldSpace_module hsp; rintro rfl; cases this
    · exact List.mem_filter.mpr ⟨(List.mem_filter.mp (List.mem_of_getElem? hf)).1, by rw [hsp]; simp⟩
  | @slot f _ j hf hk hj =>
    have : s = f := InTree.key_inj hs hst hf hr.symm (by rw [hk]; rfl)
    subst this
    exact ⟨.local, by simp, .slot hf hk (List.mem_of_getElem? hj)⟩
  | @ref _ r sp i hx hr' hsc hi =>
    have hsp : sp ≠ .label := by rintro rfl; cases hp
    have hrt := home_scope hs (.ref hx hr' hsc) hsp
    have : s = r := InTree.key_inj hs hst hrt.1 hr.symm hrt.2
    subst this
    exact ⟨sp, hsp, .ref hx hr' hsc⟩
  | block _ _ _ => cases hp

/-- Symbols are the same exactly when their nodes are. -/
theorem same_iff (hs : Solid g) {S S' : Sym} {x y : Red} (hx : IsSym g S x) (hy : IsSym g S' y) :
    S.same S' = true ↔ x = y := by
  constructor
  · intro h
    have hk : S.key = S'.key := by
      unfold Sym.same at h
      simp only [Bool.and_eq_true, beq_iff_eq] at h
      first | exact h.1 | exact h.1.1 | exact h.2
    exact (hx.key_inj hs hy hk).1
  · rintro rfl
    have := hx.det hs hy
    subst this
    unfold Sym.same
    simp

/-- Which blocks are recorded for which branch operands. -/
theorem blocks_any (hs : Solid g) {S S' : Sym} {x y : Red} (hx : IsSym g S x) (hy : IsSym g S' y) :
    ((symbolTable (Red.root g)).blocks.any fun b => b.ref == S.key && b.def_ == S'.key) = true ↔
      ∃ r, IsBranch g x r ∧ y ∈ run r := by
  rw [List.any_eq_true]
  constructor
  · rintro ⟨b, hb, he⟩
    obtain ⟨z, r, j, q, h1, h2, rfl⟩ := (mem_blocks hs).mp hb
    simp only [Bool.and_eq_true, beq_iff_eq] at he
    have hz : z = x := InTree.key_inj hs h1.1 (hx.inTree hs).1 (he.1.trans (hx.inTree hs).2.1) (hx.nonempty hs)
    subst hz
    have hq := List.mem_of_getElem? h2
    have hrt := h1.1.ancestor (List.mem_of_find?_eq_some h1.2.2.1)
    have hq' : q = y :=
      InTree.key_inj hs (run_mem hs hrt hq).1 (hy.inTree hs).1 (he.2.trans (hy.inTree hs).2.1) (hy.nonempty hs)
    subst hq'
    exact ⟨r, h1, hq⟩
  · rintro ⟨r, h1, hq⟩
    obtain ⟨j, hj⟩ := List.getElem?_of_mem hq
    refine ⟨⟨x.key, y.key, ⟨some j, nameOf y⟩⟩, (mem_blocks hs).mpr ⟨x, r, j, y, h1, hj, rfl⟩, ?_⟩
    simp [(hx.inTree hs).2.1, (hy.inTree hs).2.1]

/-- What the code takes for the block of a branch operand. -/
theorem codeDef_nearest {r : Red} {i : Index} {d : Red} : CodeDef .label r i d ↔ nearest r i = some d := by
  cases i with
  | num k => simp only [CodeDef, find_num]; rfl
  | name n => simp only [CodeDef, find_name]; rfl

theorem nearest_mem {r d : Red} {i : Index} (h : nearest r i = some d) : d ∈ nest r := by
  cases i with
  | num k => exact List.mem_of_getElem? h
  | name n => exact List.mem_of_find?_eq_some h

theorem findBlock_nearest (hs : Solid g) {x r : Red} {i : Index} (h : IsRef g x r .label i) {D : Sym} :
    (symbolTable (Red.root g)).findBlockDef x.key = some D ↔ ∃ d, nearest r i = some d ∧ IsSym g D d := by
  rw [findBlock_eq hs h]
  constructor
  · intro h1
    obtain ⟨q, h2, h3⟩ := Option.bind_eq_some_iff.mp h1
    obtain ⟨p, h4, rfl⟩ := Option.map_eq_some_iff.mp h3
    have hn : nearest r i = some q.1 := codeDef_nearest.mp (by simp only [CodeDef]; rw [h2]; rfl)
    obtain ⟨h5, h6, _⟩ := run_mem hs h.scope_mem.2.1 (nearest_mem hn)
    exact ⟨q.1, hn, .block h5 h6 h4⟩
  · rintro ⟨d, h1, h2⟩
    have hc := codeDef_nearest.mpr h1
    simp only [CodeDef] at hc
    obtain ⟨q, h3, rfl⟩ := Option.map_eq_some_iff.mp hc
    obtain ⟨h5, h6, _, p, h7⟩ := run_mem hs h.scope_mem.2.1 (nearest_mem h1)
    rw [h3, Option.bind_some, h7, Option.map_some]
    exact congrArg some ((IsSym.block h5 h6 h7).det hs h2)

/-- The symbol of a block that is not a branch operand has no block of its own. -/
theorem findBlock_block (hs : Solid g) {x p : Red} (hx : InTree g x) (hl : isLabel x.kind = true) (hp : x.parent = some p) :
    (symbolTable (Red.root g)).findBlockDef x.key = none := by
  have : (symbolTable (Red.root g)).findBlockRef x.key = none := by
    unfold SymbolTable.findBlockRef
    rw [List.find?_eq_none]
    intro s hsm
    rw [Bool.and_eq_true, beq_iff_eq, beq_iff_eq]
    rintro ⟨hk, he⟩
    obtain ⟨z, hz⟩ := (mem_symbols_iff hs).mp hsm
    obtain ⟨_, rfl⟩ := hz.key_inj hs (.block hx hl hp) he
    cases hk
  unfold SymbolTable.findBlockDef
  rw [this]; rfl

/-- A branch is no block. -/
theorem branch_not_label (hs : Solid g) {x : Red} (hx : InTree g x) (hr : RefersTo x .label) : isLabel x.kind = false := by
  rcases refersTo_kind hs hx hr with h | h <;> rw [h] <;> rfl

theorem branchUnder_iff {d y : Red} : BranchUnder g d y ↔ ∃ r, IsBranch g y r ∧ d ∈ run r := by
  constructor
  · rintro ⟨h1, h2, h3, r, h4, h5⟩; exact ⟨r, ⟨h1, h2, h4, h3⟩, h5⟩
  · rintro ⟨r, ⟨h1, h2, h4, h3⟩, h5⟩; exact ⟨h1, h2, h3, r, h4, h5⟩

/-- The node of a symbol of a block is a block; that of a branch, a branch operand. -/
theorem blockDef_node {S : Sym} {x : Red} (h : IsSym g S x) (hk : S.kind = .blockDef) : isLabel x.kind = true := by
  cases h with
  | module _ => cases hk
  | @field _ _ _ sp _ _ hf =>
    have := fieldSpace_module hf
    revert hk this; cases sp <;> simp [defSym, isModuleSpace]
  | slot _ _ _ => dsimp only at hk; split at hk <;> cases hk
  | @ref _ _ sp _ _ _ _ _ => revert hk; cases sp <;> simp [refSym]
  | block _ hl _ => exact hl

/-- Renaming a block: the renamed symbols. -/
theorem isRenamed_block (hs : Solid g) {x p : Red} (hx : InTree g x) (hl : isLabel x.kind = true) (hp : x.parent = some p)
    {old : Text} (hn : nameOf x = some old) {S' : Sym} {y : Red} (hy : IsSym g S' y) :
    (symbolTable (Red.root g)).isRenamed (blockSym x p) old S' = true ↔
      (plainSym S'.kind = true ∧ S'.region = p.key) ∨ y = x ∨ BranchUnder g x y := by
  have hX : IsSym g (blockSym x p) x := .block hx hl hp
  have hnb : ∀ r, ¬ IsBranch g x r := fun r h => by
    have := branch_not_label hs hx h.2.1; rw [hl] at this; cases this
  unfold SymbolTable.isRenamed
  split
  · rename_i hk
    simp only [hk, plainSym, Bool.false_eq_true, false_and, false_or, false_iff]
    rintro (rfl | h)
    · have := hy.det hs hX; rw [this] at hk; cases hk
    · obtain ⟨r, h1, _⟩ := branchUnder_iff.mp h
      obtain ⟨i, hi⟩ := Option.isSome_iff_exists.mp h1.2.2.2
      have := hy.det hs (.ref h1.1 h1.2.1 h1.2.2.1 hi); rw [this] at hk; cases hk
  · rename_i hk
    rw [Bool.or_eq_true, same_iff hs hX hy, blocks_any hs hX hy]
    simp only [hk, plainSym, Bool.false_eq_true, false_and, false_or]
    constructor
    · rintro (rfl | ⟨r, h, _⟩)
      · exact .inl rfl
      · exact absurd h (hnb r)
    · rintro (rfl | h)
      · exact .inl rfl
      · exfalso
        have h1 := branch_not_label hs h.1 h.2.1
        rw [blockDef_node hy hk] at h1; cases h1
  · rename_i hk
    have hfb : (symbolTable (Red.root g)).findBlockDef (blockSym x p).key = none := findBlock_block hs hx hl hp
    rw [hfb]
    simp only [Bool.or_false]
    rw [Bool.or_eq_true, same_iff hs hX hy, blocks_any hs hy hX]
    simp only [hk, plainSym, Bool.false_eq_true, false_and, false_or]
    rw [branchUnder_iff]
    constructor
    · rintro (rfl | h)
      · exact .inl rfl
      · exact .inr h
    · rintro (rfl | h)
      · exact .inl rfl
      · exact .inr h
  · rename_i n1 n2 n3
    have hpl : plainSym S'.kind = true := by
      revert n1 n2 n3; cases S'.kind <;> simp [plainSym]
    rw [Bool.and_eq_true, beq_iff_eq, beq_iff_eq]
    have e1 : (blockSym x p).idx.name = some old := hn
    have e2 : (blockSym x p).region = p.key := rfl
    rw [e1, e2]
    simp only [and_true, hpl, true_and]
    constructor
    · intro h; exact .inl h.symm
    · rintro (h | rfl | h)
      · exact h.symm
      · have := hy.det hs hX; rw [this] at n2; exact absurd rfl n2
      · obtain ⟨r, h1, _⟩ := branchUnder_iff.mp h
        obtain ⟨i, hi⟩ := Option.isSome_iff_exists.mp h1.2.2.2
        have := hy.det hs (.ref h1.1 h1.2.1 h1.2.2.1 hi); rw [this] at n3; exact absurd rfl n3

/-- Renaming a branch operand: the renamed symbols. -/
theorem isRenamed_branch (hs : Solid g) {x r : Red} {old : Text} (h : IsRef g x r .label (.name old)) {S' : Sym} {y : Red}
    (hy : IsSym g S' y) :
    (symbolTable (Red.root g)).isRenamed ⟨x.key, x.green, r.key, .blockRef, (Index.name old).toIdx⟩ old S' = true ↔
      (plainSym S'.kind = true ∧ S'.region = r.key) ∨ y = x ∨ y ∈ nest r ∨
        ∃ d, nearest r (.name old) = some d ∧ BranchUnder g d y := by
  have hX : IsSym g ⟨x.key, x.green, r.key, .blockRef, (Index.name old).toIdx⟩ x :=
    h.isSym
  have hB := h.isBranch
  have hrt : InTree g r := h.scope_mem.2.1
  have hxl := branch_not_label hs hB.1 hB.2.1
  have hdefs : ∀ q, q ∈ nest r → ∃ p, IsSym g (blockSym q p) q := fun q hq => by
    obtain ⟨h5, h6, _, p, h7⟩ := run_mem hs hrt hq
    exact ⟨p, .block h5 h6 h7⟩
  have hrefs : ∀ d, BranchUnder g d y → S'.kind = .blockRef := by
    intro d hd
    obtain ⟨r', h1, _⟩ := branchUnder_iff.mp hd
    obtain ⟨i, hi⟩ := Option.isSome_iff_exists.mp h1.2.2.2
    have := hy.det hs (.ref h1.1 h1.2.1 h1.2.2.1 hi); rw [this]; rfl
  have hblk : y ∈ nest r → S'.kind = .blockDef := by
    intro hq
    obtain ⟨p, hp⟩ := hdefs y hq
    rw [hy.det hs hp]; rfl
  have hself : y = x → S'.kind = .blockRef := by
    rintro rfl; rw [hy.det hs hX]
  unfold SymbolTable.isRenamed
  split
  · rename_i hk
    simp only [hk, plainSym, Bool.false_eq_true, false_and, false_or, false_iff]
    rw [hk] at hrefs hblk hself
    rintro (h1 | h1 | ⟨d, _, h1⟩)
    · cases hself h1
    · cases hblk h1
    · cases hrefs d h1
  · rename_i hk
    rw [Bool.or_eq_true, same_iff hs hX hy, blocks_any hs hX hy]
    simp only [hk, plainSym, Bool.false_eq_true, false_and, false_or]
    rw [hk] at hrefs hself
    constructor
    · rintro (rfl | ⟨r', h1, h2⟩)
      · exact .inl rfl
      · have e := h1.2.2.1.symm.trans hB.2.2.1
        cases e
        exact .inr (.inl h2)
    · rintro (h1 | h1 | ⟨d, _, h1⟩)
      · cases hself h1
      · exact .inr ⟨r, hB, h1⟩
      · cases hrefs d h1
  · rename_i hk
    have hfind : (match (symbolTable (Red.root g)).findBlockDef x.key with
        | some d => (symbolTable (Red.root g)).blocks.any fun b => b.ref == S'.key && b.def_ == d.key
        | none => false) = true ↔ ∃ d, nearest r (.name old) = some d ∧ BranchUnder g d y := by
      cases hf : (symbolTable (Red.root g)).findBlockDef x.key with
      | none =>
        simp only [Bool.false_eq_true, false_iff]
        rintro ⟨d, h1, _⟩
        obtain ⟨p, hp⟩ := hdefs d (nearest_mem h1)
        have := (findBlock_nearest hs h).mpr ⟨d, h1, hp⟩
        rw [hf] at this; cases this
      | some D =>
        obtain ⟨d, h1, h2⟩ := (findBlock_nearest hs h).mp hf
        dsimp only
        rw [blocks_any hs hy h2]
        constructor
        · intro h3; exact ⟨d, h1, branchUnder_iff.mpr h3⟩
        · rintro ⟨d', h3, h4⟩
          rw [h1] at h3; cases h3
          exact branchUnder_iff.mp h4
    have hno : ((symbolTable (Red.root g)).blocks.any fun b => b.ref == S'.key && b.def_ == x.key) = false := by
      rw [Bool.eq_false_iff]
      intro h1
      obtain ⟨r', h2, h3⟩ := (blocks_any hs hy hX).mp h1
      have := (run_mem hs (h2.1.ancestor (List.mem_of_find?_eq_some h2.2.2.1)) h3).2.1
      rw [hxl] at this; cases this
    rw [Bool.or_eq_true, Bool.or_eq_true, same_iff hs hX hy]
    refine (or_congr (or_congr Iff.rfl (iff_of_eq (congrArg (· = true) hno))) hfind).trans ?_
    simp only [hk, plainSym, Bool.false_eq_true, false_and, false_or, or_false]
    rw [hk] at hblk
    constructor
    · rintro (rfl | h1)
      · exact .inl rfl
      · exact .inr (.inr h1)
    · rintro (h1 | h1 | h1)
      · exact .inl h1.symm
      · cases hblk h1
      · exact .inr h1
  · rename_i n1 n2 n3
    have hpl : plainSym S'.kind = true := by
      revert n1 n2 n3; cases S'.kind <;> simp [plainSym]
    rw [Bool.and_eq_true, beq_iff_eq, beq_iff_eq]
    have e1 : (Index.name old).toIdx.name = some old := rfl
    dsimp only
    rw [e1]
    simp only [and_true, hpl, true_and]
    constructor
    · intro h; exact .inl h.symm
    · rintro (h1 | h1 | h1 | ⟨d, _, h1⟩)
      · exact h1.symm
      · exact absurd (hself h1) n3
      · exact absurd (hblk h1) n2
      · exact absurd (hrefs d h1) n3

/-- The nodes that are edited with a block or branch operand. -/
theorem isRenamed_label (hs : Solid g) {x : Red} {t : Tok} (hx : InTree g x) (ht : x.token .IDENT = some t)
    (hl : isLabel x.kind = true ∨ RefersTo x .label ∧ (scopeOf .label x).isSome) :
    ∃ S, IsSym g S x ∧ ∀ {y : Red} {k : Tok}, y.token .IDENT = some k →
      ((∃ S', IsSym g S' y ∧ (symbolTable (Red.root g)).isRenamed S t.text S' = true) ↔ EditedWith g x y) := by
  rcases hl with hl | ⟨hr, hsc⟩
  · obtain ⟨p, hp⟩ := hx.parent_some hs (by intro h; rw [h] at hl; cases hl)
    have hpt := (hx.parent hp).1
    refine ⟨blockSym x p, .block hx hl hp, fun {y k} hk => ?_⟩
    constructor
    · rintro ⟨S', h1, h2⟩
      rcases (isRenamed_block hs hx hl hp (nameOf_token ht) h1).mp h2 with ⟨h3, h4⟩ | rfl | h3
      · obtain ⟨sp, h5, h6⟩ := sym_home_of_region hs h1 h3 hpt h4
        exact .besideBlock hl hp h5 h6
      · exact .self
      · exact .operand hl h3
    · have hR := branch_not_label hs hx
      intro h
      cases h with
      | self => exact ⟨_, .block hx hl hp, (isRenamed_block hs hx hl hp (nameOf_token ht) (.block hx hl hp)).mpr (.inr (.inl rfl))⟩
      | besideBlock h1 h2 h3 h4 =>
        rw [hp] at h2; cases h2
        obtain ⟨S', h5, h6, _, h7⟩ := home_sym h4 h3 hk
        exact ⟨S', h5, (isRenamed_block hs hx hl hp (nameOf_token ht) h5).mpr (.inl ⟨h7, h6⟩)⟩
      | besideBranch h1 => rw [hR h1] at hl; cases hl
      | operand h1 h2 =>
        obtain ⟨r, h3, _⟩ := branchUnder_iff.mp h2
        obtain ⟨i, hi⟩ := Option.isSome_iff_exists.mp h3.2.2.2
        have h5 : IsSym g _ y := .ref h3.1 h3.2.1 h3.2.2.1 hi
        exact ⟨_, h5, (isRenamed_block hs hx hl hp (nameOf_token ht) h5).mpr (.inr (.inr h2))⟩
      | block h1 => rw [hR h1] at hl; cases hl
      | alike h1 => rw [hR h1] at hl; cases hl
  · obtain ⟨r, hsc⟩ := Option.isSome_iff_exists.mp hsc
    have hi := indexOf_token ht
    have hR : IsRef g x r .label (.name t.text) := ⟨hx, hr, hsc, hi⟩
    have hrt : InTree g r := hR.scope_mem.2.1
    have hxl := branch_not_label hs hx hr
    refine ⟨_, .ref hx hr hsc hi, fun {y k} hk => ?_⟩
    constructor
    · rintro ⟨S', h1, h2⟩
      rcases (isRenamed_branch hs hR h1).mp h2 with ⟨h3, h4⟩ | rfl | h3 | ⟨d, h3, h4⟩
      · obtain ⟨sp, h5, h6⟩ := sym_home_of_region hs h1 h3 hrt h4
        exact .besideBranch hr hsc h5 h6
      · exact .self
      · exact .block hr hsc h3
      · exact .alike hr hsc hi h3 h4
    · intro h
      cases h with
      | self => exact ⟨_, .ref hx hr hsc hi, (isRenamed_branch hs hR (.ref hx hr hsc hi)).mpr (.inr (.inl rfl))⟩
      | besideBlock h1 => rw [h1] at hxl; cases hxl
      | besideBranch h1 h2 h3 h4 =>
        rw [hsc] at h2; cases h2
        obtain ⟨S', h5, h6, _, h7⟩ := home_sym h4 h3 hk
        exact ⟨S', h5, (isRenamed_branch hs hR h5).mpr (.inl ⟨h7, h6⟩)⟩
      | operand h1 => rw [h1] at hxl; cases hxl
      | block h1 h2 h3 =>
        rw [hsc] at h2; cases h2
        obtain ⟨h5, h6, _, p, h7⟩ := run_mem hs hrt h3
        exact ⟨_, .block h5 h6 h7, (isRenamed_branch hs hR (.block h5 h6 h7)).mpr (.inr (.inr (.inl h3)))⟩
      | @alike r' _ d i h1 h2 h3 h4 h5 =>
        rw [hsc] at h2; cases h2
        rw [hi] at h3; cases h3
        obtain ⟨r', h6, _⟩ := branchUnder_iff.mp h5
        obtain ⟨i, hi'⟩ := Option.isSome_iff_exists.mp h6.2.2.2
        have h7 : IsSym g _ y := .ref h6.1 h6.2.1 h6.2.2.1 hi'
        exact ⟨_, h7, (isRenamed_branch hs hR h7).mpr (.inr (.inr (.inr ⟨d, h4, h5⟩)))⟩

end Verif
