import Verif.Lemmas.Distinct
import Verif.Lemmas.Offsets
import Verif.Lemmas.Denote
/-!
Helper lemmas: the edits of a rename.
-/
namespace Verif
open Spec
variable {g : Green}

theorem bind_done {a : Ans α} {f : α → Ans β} {b : β} (h : a.bind f = .done b) : ∃ x, a = .done x ∧ f x = .done b := by
  cases a with
  | done x => exact ⟨x, rfl, h⟩
  | panic => cases h

theorem ofOption_done {o : Option α} {a : α} (h : Ans.ofOption o = .done a) : o = some a := by
  cases o with
  | some b => cases h; rfl
  | none => cases h

theorem renamedTokens_eq {root : Red} : ∀ {ss : List Sym} {toks : List Tok}, renamedTokens root ss = .done toks →
    toks = ss.filterMap fun s => (s.key.toNode root).bind fun n => n.token .IDENT
  | [], toks, h => by simp only [renamedTokens] at h; cases h; rfl
  | s :: ss, toks, h => by
    simp only [renamedTokens] at h
    obtain ⟨n, h1, h⟩ := bind_done h
    obtain ⟨rest, h2, h⟩ := bind_done h
    cases h
    have h1 := ofOption_done h1
    rw [List.filterMap_cons, h1, ← renamedTokens_eq h2]
    cases hn : n.token .IDENT <;> simp [hn]

/-- What a successful rename consists of. -/
theorem rename_elim {src : Text} {p : Pos} {name : Text} {es : List TextEdit}
    (h : rename src (Red.root g) p name = .done (.edits (some es))) :
    ∃ t x symbol toks, validName name = true ∧ findMeaningfulToken src (Red.root g) p = .done (some t) ∧ t.kind = .IDENT ∧
      t.parent = some x ∧ (symbolTable (Red.root g)).byKey x.key = some symbol ∧
      toks = ((symbolTable (Red.root g)).symbols.filter ((symbolTable (Red.root g)).isRenamed symbol t.text)).filterMap
        (fun s => (s.key.toNode (Red.root g)).bind fun n => n.token .IDENT) ∧
      toks.map (fun tk : Tok => (Ans.ofOption (rowanRangeToLsp src tk.off tk.stop)).bind fun r =>
          .done (⟨r, name⟩ : TextEdit)) = es.map .done := by
  unfold rename at h
  split at h
  · rename_i hv
    obtain ⟨o, h1, h⟩ := bind_done h
    cases o with
    | none => cases h
    | some t =>
      dsimp only at h
      split at h
      · rename_i hk
        obtain ⟨o, h2, h⟩ := bind_done h
        cases h
        unfold renameImpl at h2
        split at h2
        · cases h2
        · rename_i x hx
          dsimp only at h2
          split at h2
          · cases h2
          · rename_i symbol hsym
            obtain ⟨toks, h3, h2⟩ := bind_done h2
            obtain ⟨es', h4, h2⟩ := bind_done h2
            cases h2
            exact ⟨t, x, symbol, toks, hv, h1, by simpa using hk, hx, hsym, renamedTokens_eq h3, mapL_done h4⟩
      · cases h
  · cases h

/-- Two tokens of a tree are the same or do not overlap. -/
theorem toks_disjoint {a b : Tok} (ha : a ∈ (Red.root g).tokens) (hb : b ∈ (Red.root g).tokens) (hne : a ≠ b) :
    a.stop ≤ b.off ∨ b.stop ≤ a.off := by
  rcases pairwise_mem (Red.tokens_order (Red.root g)) ha hb with h | h | h
  · exact absurd h hne
  · exact .inl h
  · exact .inr h

theorem token_mem {n : Red} {k : Kind} {t : Tok} (h : n.token k = some t) : t ∈ n.childToks ∧ t.kind = k := by
  unfold Red.token at h
  exact ⟨List.mem_of_find?_eq_some h, by simpa using List.find?_some h⟩

theorem childTok_parent {n : Red} {t : Tok} (h : t ∈ n.childToks) : t.parent = some n := by
  have := (Red.mem_childToks.mp h).2
  unfold Tok.parent
  rw [this]

/-- The identifier tokens of different symbols do not overlap. -/
theorem renamed_disjoint (hs : Solid g) {p : Sym → Bool} {toks : List Tok}
    (h : toks = ((symbolTable (Red.root g)).symbols.filter p).filterMap
      (fun s => (s.key.toNode (Red.root g)).bind fun n => n.token .IDENT)) :
    toks.Pairwise (fun a b => a.stop ≤ b.off ∨ b.stop ≤ a.off) ∧
      ∀ t ∈ toks, t ∈ (Red.root g).tokens ∧ t.kind = .IDENT := by
  subst h
  have mem : ∀ {s t}, s ∈ (symbolTable (Red.root g)).symbols →
      (s.key.toNode (Red.root g)).bind (fun n => n.token .IDENT) = some t → ∃ x, IsSym g s x ∧ x.token .IDENT = some t := by
    intro s t h1 h2
    obtain ⟨x, h3, h4⟩ := sym_toNode hs h1
    rw [h4] at h2
    exact ⟨x, h3, h2⟩
  constructor
  · rw [List.pairwise_filterMap]
    refine ((symbols_distinct hs).filter p).imp_of_mem ?_
    intro s s' h1 h2 hne t ht t' ht'
    obtain ⟨x, hx, hx'⟩ := mem (List.mem_filter.mp h1).1 ht
    obtain ⟨y, hy, hy'⟩ := mem (List.mem_filter.mp h2).1 ht'
    refine toks_disjoint (tok_mem (hx.inTree hs).1 (token_mem hx').1) (tok_mem (hy.inTree hs).1 (token_mem hy').1) ?_
    rintro rfl
    have e := (childTok_parent (token_mem hx').1).symm.trans (childTok_parent (token_mem hy').1)
    cases e
    exact hne (by rw [(hx.inTree hs).2.1, (hy.inTree hs).2.1])
  · intro t ht
    obtain ⟨s, h1, h2⟩ := List.mem_filterMap.mp ht
    obtain ⟨x, hx, hx'⟩ := mem (List.mem_filter.mp h1).1 h2
    exact ⟨tok_mem (hx.inTree hs).1 (token_mem hx').1, (token_mem hx').2⟩

theorem edit_of_tok {src name : Text} {tk : Tok} {e : TextEdit}
    (h : ((Ans.ofOption (rowanRangeToLsp src tk.off tk.stop)).bind fun r => .done (⟨r, name⟩ : TextEdit)) = .done e) :
    IsRange src (tk.off, tk.stop) e.range ∧ e.newText = name := by
  obtain ⟨r, h1, h2⟩ := bind_done h
  cases h2
  exact ⟨rowanRangeToLsp_iff.mp (ofOption_done h1), rfl⟩

/-- The edits of a rename with the cursor on the identifier of a symbol. -/
theorem rename_exact (hs : Solid g) {u v : Text} {t : Tok} {x : Red} (hc : CursorOn (Red.root g) (bytes u) t)
    (hx : t.parent = some x) {symbol : Sym} (hsym : IsSym g symbol x) {name : Text} {es : List TextEdit}
    (h : rename (u ++ v) (Red.root g) (posAfter u) name = .done (.edits (some es))) (e : TextEdit) :
    e ∈ es ↔ ∃ s y k, IsSym g s y ∧ (symbolTable (Red.root g)).isRenamed symbol t.text s = true ∧ y.token .IDENT = some k ∧
      IsRange (u ++ v) (k.off, k.stop) e.range ∧ e.newText = name := by
  obtain ⟨t', x', symbol', toks, _, h1, _, h3, h4, h5, h6⟩ := rename_elim h
  rw [cursor_token hs hc] at h1
  cases h1
  rw [hx] at h3; cases h3
  have hb := byKey_eq hs ((mem_symbols_iff hs).mpr ⟨x, hsym⟩)
  rw [(hsym.inTree hs).2.1, h4] at hb
  cases hb
  have hmem : e ∈ es ↔ ∃ tk ∈ toks, ((Ans.ofOption (rowanRangeToLsp (u ++ v) tk.off tk.stop)).bind fun r =>
      .done (⟨r, name⟩ : TextEdit)) = .done e := by
    rw [← List.mem_map, h6, List.mem_map]
    constructor
    · intro h; exact ⟨e, h, rfl⟩
    · rintro ⟨e', h, he⟩; cases he; exact h
  rw [hmem]
  constructor
  · rintro ⟨tk, h7, h8⟩
    rw [h5] at h7
    obtain ⟨s, h9, h10⟩ := List.mem_filterMap.mp h7
    rw [List.mem_filter] at h9
    obtain ⟨y, hy, hy'⟩ := sym_toNode hs h9.1
    rw [hy'] at h10
    exact ⟨s, y, tk, hy, h9.2, h10, edit_of_tok h8⟩
  · rintro ⟨s, y, k, hy, h7, h8, h9, h10⟩
    have hm := (mem_symbols_iff hs).mpr ⟨y, hy⟩
    refine ⟨k, ?_, ?_⟩
    · rw [h5]
      refine List.mem_filterMap.mpr ⟨s, List.mem_filter.mpr ⟨hm, h7⟩, ?_⟩
      obtain ⟨y', hy', hn⟩ := sym_toNode hs hm
      obtain ⟨rfl, _⟩ := hy.key_inj hs hy' rfl
      rw [hn]; exact h8
    · rw [rowanRangeToLsp_iff.mpr h9, ← h10]; rfl


theorem nameOf_token {x : Red} {t : Tok} (h : x.token .IDENT = some t) : nameOf x = some t.text := by
  unfold nameOf; rw [h]; rfl

theorem indexOf_token {x : Red} {t : Tok} (h : x.token .IDENT = some t) : indexOf x = some (.name t.text) := by
  unfold indexOf; rw [nameOf_token h]

/-- Kinds of symbols that are not about labels or modules. -/
def plainSym : SymKind → Bool
  | .module | .blockDef | .blockRef => false
  | _ => true

theorem home_scope (hs : Solid g) {s x : Red} {sp : Space} (h : Home g s sp x) (hsp : sp ≠ .label) :
    InTree g s ∧ mayBeEmpty s.kind = false := by
  cases h with
  | field h1 _ => exact ⟨(InTree.root g).child h1, by rw [root_children hs h1]; rfl⟩
  | slot h1 h2 _ => exact ⟨h1, by rw [h2]; rfl⟩
  | ref h1 _ h3 =>
    have hi := InTree.ancestor h1 (List.mem_of_find?_eq_some h3)
    have hk : scopeKind sp s.kind = true := List.find?_some (p := fun a : Red => scopeKind sp a.kind) h3
    refine ⟨hi, ?_⟩
    revert hk hsp
    cases sp <;> simp [scopeKind] <;> intro h <;> rw [h] <;> rfl

/-- A named declaration or reference has a symbol in its scope. -/
theorem home_sym {s x : Red} {sp : Space} (h : Home g s sp x) (hsp : sp ≠ .label) {t : Tok}
    (ht : x.token .IDENT = some t) :
    ∃ S, IsSym g S x ∧ S.region = s.key ∧ S.idx.name = some t.text ∧ plainSym S.kind = true := by
  cases h with
  | field h1 h2 =>
    have h3 := List.mem_filter.mp h2
    have h4 : fieldSpace x.kind = some sp := by simpa using h3.2
    obtain ⟨k, hk⟩ := List.getElem?_of_mem (List.mem_filter.mpr ⟨h3.1, by rw [h4]; rfl⟩ : x ∈ fields s)
    refine ⟨_, .field h1 hk h4, rfl, nameOf_token ht, ?_⟩
    have := fieldSpace_module h4
    revert this
    cases sp <;> simp [isModuleSpace, plainSym, defSym]
  | slot h1 h2 h3 =>
    obtain ⟨k, hk⟩ := List.getElem?_of_mem h3
    refine ⟨_, .slot h1 h2 hk, rfl, nameOf_token ht, ?_⟩
    dsimp only
    split <;> rfl
  | ref h1 h2 h3 =>
    refine ⟨_, .ref h1 h2 h3 (indexOf_token ht), rfl, rfl, ?_⟩
    revert hsp
    cases sp <;> simp [plainSym, refSym]

theorem sym_home (hs : Solid g) {S : Sym} {s y : Red} (h : IsSym g S y) (hp : plainSym S.kind = true) (hst : InTree g s)
    (he : mayBeEmpty s.kind = false) (hr : S.region = s.key) : ∃ sp, sp ≠ .label ∧ Home g s sp y := by
  cases h with
  | module _ => cases hp
  | @field m _ k sp hm hf hsp =>
    have : m = s := InTree.key_inj hs ((InTree.root g).child hm) hst hr he
    subst this
    refine ⟨sp, ?_, .field hm ?_⟩
    · have := fieldSpace_module hsp; rintro rfl; cases this
    · exact List.mem_filter.mpr ⟨(List.mem_filter.mp (List.mem_of_getElem? hf)).1, by rw [hsp]; simp⟩
  | @slot f _ j hf hk hj =>
    have : f = s := InTree.key_inj hs hf hst hr he
    subst this
    exact ⟨.local, by simp, .slot hf hk (List.mem_of_getElem? hj)⟩
  | @ref _ r sp i hx hr' hsc hi =>
    have hrt := hx.ancestor (List.mem_of_find?_eq_some hsc)
    have : r = s := InTree.key_inj hs hrt hst hr he
    subst this
    refine ⟨sp, ?_, .ref hx hr' hsc⟩
    rintro rfl; cases hp
  | block _ _ _ => cases hp

/-- Renaming a symbol that is not about labels renames exactly the symbols of its scope. -/
theorem isRenamed_iff (hs : Solid g) {S S' : Sym} {x : Red} (h : IsSym g S x)
    (hp : plainSym S.kind = true) {old : Text} (hn : S.idx.name = some old) :
    (symbolTable (Red.root g)).isRenamed S old S' = true ↔ plainSym S'.kind = true ∧ S.region = S'.region := by
  have hsame : ∀ {S' : Sym}, plainSym S'.kind = false → S.same S' = false := by
    intro S' hk
    unfold Sym.same
    rw [Bool.and_eq_false_iff]
    right
    rw [beq_eq_false_iff_ne]
    intro he
    rw [he, hk] at hp; cases hp
  have hxk := (h.inTree hs).2.1
  have href : ∀ b ∈ (symbolTable (Red.root g)).blocks, (b.ref == S.key) = false := by
    intro b hb
    obtain ⟨z, r, j, q, h1, h2, rfl⟩ := (mem_blocks hs).mp hb
    rw [beq_eq_false_iff_ne]
    intro he
    obtain ⟨⟨hz1, hz2, hz3⟩⟩ : _ ∧ True := ⟨h1, trivial⟩
    have : z = x := InTree.key_inj hs hz1 (h.inTree hs).1 (he.trans hxk) (h.nonempty hs)
    subst this
    cases h with
    | module hm => have := refersTo_kind hs hz1 hz2; rw [root_children hs hm] at this; simp at this
    | field hm hf hsp => have := refersTo_kind hs hz1 hz2; rcases this with h | h <;> rw [h] at hsp <;> cases hsp
    | slot hf hk hj =>
      have := slot_class hf (List.mem_of_getElem? hj)
      rcases refersTo_kind hs hz1 hz2 with h | h <;> rw [h] at this <;> cases this
    | ref _ hr _ _ => have := refersTo_fun hr hz2; subst this; cases hp
    | block _ _ _ => cases hp
  have hdef : ∀ b ∈ (symbolTable (Red.root g)).blocks, (b.def_ == S.key) = false := by
    intro b hb
    obtain ⟨z, r, j, q, h1, h2, rfl⟩ := (mem_blocks hs).mp hb
    rw [beq_eq_false_iff_ne]
    intro he
    have hq : isLabel q.kind = true := mem_takeWhile_imp' (p := fun a : Red => isLabel a.kind) (List.mem_of_getElem? h2)
    have hk : q.kind = x.kind := by
      have : q.key = x.key := he.trans hxk
      simp only [Red.key, Key.mk.injEq] at this
      exact this.1
    have hc := h.cls hs
    rw [← hk, symClass_block hq] at hc
    have hc := Option.some.inj hc
    revert hp hc
    cases S.kind <;> simp [plainSym, SymKind.cls]
  have hnb : (symbolTable (Red.root g)).findBlockDef S.key = none := by
    have : (symbolTable (Red.root g)).findBlockRef S.key = none := by
      unfold SymbolTable.findBlockRef
      rw [List.find?_eq_none]
      intro s hsm
      rw [Bool.and_eq_true, beq_iff_eq, beq_iff_eq]
      rintro ⟨hk, he⟩
      obtain ⟨z, hz⟩ := (mem_symbols_iff hs).mp hsm
      obtain ⟨_, rfl⟩ := hz.key_inj hs h he
      rw [hk] at hp; cases hp
    unfold SymbolTable.findBlockDef
    rw [this]; rfl
  unfold SymbolTable.isRenamed
  split
  · rename_i hk; rw [hk]; simp [plainSym]
  · rename_i hk
    rw [hk, hsame (by rw [hk]; rfl)]
    simp only [Bool.false_or, List.any_eq_true, Bool.and_eq_true, plainSym, Bool.false_eq_true, false_and, iff_false]
    rintro ⟨b, hb, h1, _⟩
    rw [href b hb] at h1; cases h1
  · rename_i hk
    rw [hk, hsame (by rw [hk]; rfl), hnb]
    simp only [Bool.false_or, Bool.or_false, List.any_eq_true, Bool.and_eq_true, plainSym, Bool.false_eq_true, false_and,
      iff_false]
    rintro ⟨b, hb, _, h1⟩
    rw [hdef b hb] at h1; cases h1
  · rename_i n1 n2 n3
    rw [Bool.and_eq_true, beq_iff_eq, beq_iff_eq, hn]
    have : plainSym S'.kind = true := by
      revert n1 n2 n3; cases S'.kind <;> simp [plainSym]
    simp [this]

theorem denotes_mem {sp : Space} {z d : Red} {i : Index} (h : Denotes sp z i d) : d ∈ declarations sp z := by
  cases i with
  | num j => exact List.mem_of_getElem? h
  | name n =>
    unfold Denotes at h
    dsimp only at h
    split at h
    · exact List.mem_of_find?_eq_some h
    · exact h.1

theorem declarations_cases {sp : Space} {z d : Red} (h : d ∈ declarations sp z) :
    (sp = .label ∧ isLabel d.kind = true) ∨ (sp = .local ∧ ∃ f, scopeOf .local z = some f ∧ d ∈ localSlots f) ∨
      (isModuleSpace sp = true ∧ ∃ m, scopeOf sp z = some m ∧ d ∈ indexSpace sp m) := by
  by_cases h1 : sp = .label
  · subst h1; exact .inl ⟨rfl, (mem_labelsOf h).1⟩
  · by_cases h2 : sp = .local
    · subst h2
      refine .inr (.inl ⟨rfl, ?_⟩)
      simp only [declarations] at h
      cases hsc : scopeOf .local z with
      | none => rw [hsc] at h; cases h
      | some f => rw [hsc] at h; exact ⟨f, rfl, h⟩
    · have hm : isModuleSpace sp = true := by revert h1 h2; cases sp <;> simp [isModuleSpace]
      refine .inr (.inr ⟨hm, ?_⟩)
      cases hsc : scopeOf sp z with
      | none =>
        exfalso; revert h h1 h2
        cases sp <;> simp_all [declarations]
      | some m => rw [declarations_module hm hsc] at h; exact ⟨m, rfl, h⟩

/-- A reference to a declaration that is not a label is looked up in the scope of the declaration. -/
theorem resolves_home (hs : Solid g) {s z d : Red} {sp : Space} (hd : Home g s sp d) (hdecl : Declares g d sp)
    (hz : InTree g z) (h : Resolves z d) : ∃ sp', sp' ≠ .label ∧ Home g s sp' z := by
  obtain ⟨sp', i, r1, _, r3⟩ := h
  have hcl : symClass d.kind = some .field ∧ (∃ m, m ∈ (Red.root g).children ∧ d ∈ m.descendants ∧ s = m) ∨
      symClass d.kind = some .slot ∧ InTree g s ∧ d ∈ localSlots s := by
    cases hdecl with
    | @field m _ h1 h2 h3 =>
      have hmt := (InTree.root g).child h1
      refine .inl ⟨symClass_field h3, m, h1, h2, ?_⟩
      cases hd with
      | field h4 h5 =>
        have h6 := (List.mem_filter.mp h5).1
        have hst := (InTree.root g).child h4
        exact module_ancestor_unique h4 h1 ((hst.mem_descendants (hmt.descendant h2)).mp h6)
          ((hmt.mem_descendants (hmt.descendant h2)).mp h2)
      | slot h4 h5 h6 => cases fieldSpace_module h3
      | ref h4 h5 h6 => rcases refersTo_kind hs h4 h5 with h | h <;> rw [h] at h3 <;> cases h3
    | @slot f h1 h2 h3 =>
      refine .inr ⟨slot_class h1 h3, ?_⟩
      cases hd with
      | field h4 h5 =>
        have h6 := (List.mem_filter.mp h5).2
        rw [beq_iff_eq] at h6
        cases fieldSpace_module h6
      | slot h4 h5 h6 => exact ⟨h4, h6⟩
      | ref h4 h5 h6 =>
        have hc := slot_class h1 h3
        rcases refersTo_kind hs h4 h5 with h | h <;> rw [h] at hc <;> cases hc
  rcases declarations_cases (denotes_mem r3) with ⟨_, h1⟩ | ⟨rfl, f, h1, h2⟩ | ⟨h0, m, h1, h2⟩
  · rw [symClass_block h1] at hcl; simp at hcl
  · have hft := hz.ancestor (List.mem_of_find?_eq_some h1)
    rw [slot_class hft h2] at hcl
    simp only [reduceCtorEq, false_and, true_and, false_or, Option.some.injEq] at hcl
    rw [localSlots_func hs hcl.1 hft hcl.2 h2]
    exact ⟨.local, by simp, .ref hz r1 h1⟩
  · have h3 := List.mem_filter.mp h2
    rw [beq_iff_eq] at h3
    rw [symClass_field h3.2] at hcl
    simp only [reduceCtorEq, false_and, true_and, or_false, Option.some.injEq] at hcl
    obtain ⟨m', h4, h5, rfl⟩ := hcl
    have hmt := hz.ancestor (List.mem_of_find?_eq_some h1)
    have hsk : scopeKind sp' = fun k => k == .MODULE := by revert h0; cases sp' <;> simp [isModuleSpace, scopeKind]
    have hmk := List.find?_some (p := fun a : Red => scopeKind sp' a.kind) h1
    simp only [hsk, beq_iff_eq] at hmk
    have hst := (InTree.root g).child h4
    have hdt := hst.descendant h5
    have := module_ancestor_unique h4 (hmt.module_kind hs hmk) ((hst.mem_descendants hdt).mp h5)
      ((hmt.mem_descendants hdt).mp h3.1)
    subst this
    exact ⟨sp', (by rintro rfl; cases h0), .ref hz r1 h1⟩

/-- Occurrences of the same thing, not a label, are in the same scope. -/
theorem SameEntity.sameScope (hs : Solid g) {x y : Red} {sp : Space} (hsp : sp ≠ .label) (hh : Declares g x sp ∨ RefersTo x sp)
    (hy : SameEntity g x y) : SameScope g x y := by
  obtain ⟨d, hd, hxd, hyd⟩ := hy
  have hdecl : ∃ spd, Declares g d spd := by
    rcases hd with hd | hd
    · exact hd
    · exfalso
      have hcl := symClass_block hd.2
      rcases hxd with rfl | ⟨hxt, sp', i, r1, r2, r3⟩
      · rcases hh with hh | hh
        · cases hh with
          | field _ _ hf => rw [symClass_field hf] at hcl; cases hcl
          | slot hf _ hj => rw [slot_class hf hj] at hcl; cases hcl
        · rcases refersTo_kind hs hd.1 hh with h | h <;> rw [h] at hcl <;> cases hcl
      · have hx : RefersTo x sp := by
          rcases hh with hh | hh
          · exfalso
            cases hh with
            | field _ _ hf => rcases refersTo_kind hs hxt r1 with h | h <;> rw [h] at hf <;> cases hf
            | slot hf _ hj =>
              have hc := slot_class hf hj
              rcases refersTo_kind hs hxt r1 with h | h <;> rw [h] at hc <;> cases hc
          · exact hh
        have := refersTo_fun hx r1
        subst this
        rcases declarations_cases (denotes_mem r3) with ⟨h1, _⟩ | ⟨rfl, f, h1, h2⟩ | ⟨h0, m, h1, h2⟩
        · exact hsp h1
        · rw [slot_class (InTree.ancestor hxt (List.mem_of_find?_eq_some h1)) h2] at hcl; cases hcl
        · have := (List.mem_filter.mp h2).2
          rw [beq_iff_eq] at this
          rw [symClass_field this] at hcl; cases hcl
  obtain ⟨spd, hdecl⟩ := hdecl
  obtain ⟨s, hne, hhome⟩ : ∃ s, spd ≠ .label ∧ Home g s spd d := by
    cases hdecl with
    | @field m _ h1 h2 h3 =>
      exact ⟨m, (by rintro rfl; cases fieldSpace_module h3), .field h1 (List.mem_filter.mpr ⟨h2, by rw [h3]; simp⟩)⟩
    | slot h1 h2 h3 => exact ⟨_, by simp, .slot h1 h2 h3⟩
  have hz : ∀ z, (z = d ∨ (z ∈ (Red.root g).descendants ∧ Resolves z d)) → ∃ sp', sp' ≠ .label ∧ Home g s sp' z := by
    rintro z (rfl | ⟨hzt, hr⟩)
    · exact ⟨spd, hne, hhome⟩
    · exact resolves_home hs hhome hdecl hzt hr
  obtain ⟨sp1, n1, o1⟩ := hz x hxd
  obtain ⟨sp2, n2, o2⟩ := hz y hyd
  exact ⟨s, sp1, sp2, n1, n2, o1, o2⟩

end Verif
