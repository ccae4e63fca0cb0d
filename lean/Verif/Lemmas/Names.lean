import Verif.Lemmas.Offsets
import Verif.Lemmas.Cursor
/-!
Helper lemmas: the place shown for a symbol determines the symbol; find-references.
-/
set_option linter.unusedSimpArgs false
namespace Verif
open Spec

variable {g : Green}

/-! ### Places determine nodes -/

theorem posAfter_inj {src u v u' v' : Text} (h : src = u ++ v) (h' : src = u' ++ v') (hp : posAfter u = posAfter u') :
    bytes u = bytes u' := by
  have h1 := offsetAt_eq u v
  have h2 := offsetAt_eq u' v'
  rw [← h] at h1
  rw [← h', ← hp, h1] at h2
  exact Option.some.inj h2

theorem isRange_inj {src : Text} {a b : Nat × Nat} {r : Range} (h : IsRange src a r) (h' : IsRange src b r) : a = b := by
  obtain ⟨⟨u, v, h1, h2, h3⟩, u', v', h4, h5, h6⟩ := h
  obtain ⟨⟨w, x, k1, k2, k3⟩, w', x', k4, k5, k6⟩ := h'
  have e1 := posAfter_inj h1 k1 (h3.symm.trans k3)
  have e2 := posAfter_inj h4 k4 (h6.symm.trans k6)
  exact Prod.ext (by omega) (by omega)

theorem childTok_solid (hs : Solid g) {n : Red} (hn : InTree g n) {t : Tok} (h : t ∈ n.childToks) : 0 < bytes t.text :=
  bytes_pos (tok_solid hs (tok_mem hn h))

theorem childTok_within {n : Red} {t : Tok} (h : t ∈ n.childToks) : n.start ≤ t.off ∧ t.stop ≤ n.stop :=
  (Red.mem_childToks.mp h).1.within

/-- The elements of a node, a token and a node, do not overlap. -/
theorem childTok_child {n c : Red} {t : Tok} (ht : t ∈ n.childToks) (hc : c ∈ n.children) : t.stop ≤ c.start ∨ c.stop ≤ t.off := by
  unfold Red.childToks at ht
  unfold Red.children at hc
  obtain ⟨e1, he1, h1⟩ := List.mem_filterMap.mp ht
  obtain ⟨e2, he2, h2⟩ := List.mem_filterMap.mp hc
  cases e1 with
  | node _ => cases h1
  | tok t' =>
    cases h1
    cases e2 with
    | tok _ => cases h2
    | node c' =>
      cases h2
      rcases pairwise_mem (childEls_order (n.self :: n.up) n.self.cs n.self.off).1 he1 he2 with h | h | h
      · cases h
      · exact .inl h
      · exact .inr h

/-- A node strictly below another is below one of its children. -/
theorem StrictlyBelow.child {m n : Red} (hm : InTree g m) (h : m.StrictlyBelow n) :
    ∃ c ∈ n.children, c.start ≤ m.start ∧ m.stop ≤ c.stop := by
  obtain ⟨l, h1, h2⟩ := h
  have hne : ∃ l' f, l = l' ++ [f] := ⟨l.dropLast, l.getLast h1, (List.dropLast_concat_getLast h1).symm⟩
  obtain ⟨l', f, rfl⟩ := hne
  have hc : (⟨f, n.self :: n.up⟩ : Red) ∈ m.ancestors := by
    rw [Red.mem_ancestors]
    exact ⟨l', by rw [h2]; simp⟩
  have hct := hm.ancestor hc
  have hp : (⟨f, n.self :: n.up⟩ : Red).parent = some n := rfl
  exact ⟨_, (hct.parent hp).2, hm.within hc⟩

/-- The place shown for a node is in the node. -/
theorem nameRange_within (n : Red) : n.start ≤ (nameRange n).1 ∧ (nameRange n).2 ≤ n.stop := by
  unfold nameRange
  have aux : ∀ {k} {t : Tok}, n.childToks.find? (fun t => t.kind == k) = some t →
      n.start ≤ t.off ∧ t.off + bytes t.text ≤ n.stop := fun hf => childTok_within (List.mem_of_find?_eq_some hf)
  split
  · rename_i hf; exact aux hf
  · rename_i hf; exact aux hf
  · exact ⟨Nat.le_refl _, Nat.le_refl _⟩

/-- The place shown for a node with tokens contains one of them. -/
theorem nameRange_own {n : Red} (h : n.childToks ≠ []) :
    ∃ t ∈ n.childToks, (nameRange n).1 ≤ t.off ∧ t.stop ≤ (nameRange n).2 := by
  unfold nameRange
  split
  · rename_i t hf; exact ⟨t, List.mem_of_find?_eq_some hf, Nat.le_refl _, Nat.le_refl _⟩
  · rename_i t _ hf; exact ⟨t, List.mem_of_find?_eq_some hf, Nat.le_refl _, Nat.le_refl _⟩
  · cases hl : n.childToks with
    | nil => exact absurd hl h
    | cons t l =>
      have : t ∈ n.childToks := by rw [hl]; simp
      exact ⟨t, by simp, childTok_within this⟩

theorem nameRange_below (hs : Solid g) {m n : Red} (hm : InTree g m) (hn : InTree g n) (hb : m.StrictlyBelow n)
    (ht : n.childToks ≠ []) : nameRange m ≠ nameRange n := by
  intro he
  obtain ⟨c, hc, h1, h2⟩ := StrictlyBelow.child hm hb
  obtain ⟨t, h3, h4, h5⟩ := nameRange_own ht
  have h6 := nameRange_within m
  have h7 := childTok_solid hs hn h3
  unfold Tok.stop at *
  rcases childTok_child h3 hc with h | h
  · unfold Tok.stop at h; rw [he] at h6; omega
  · rw [he] at h6; omega

theorem nameRange_inj (hs : Solid g) {m n : Red} (hm : InTree g m) (hn : InTree g n) (ht : m.childToks ≠ [])
    (ht' : n.childToks ≠ []) (he : nameRange m = nameRange n) : m = n := by
  have h1 := nameRange_within m
  have h2 := nameRange_within n
  obtain ⟨t, h3, h4, h5⟩ := nameRange_own ht
  have h6 := childTok_solid hs hm h3
  unfold Tok.stop at h5
  rw [he] at h1 h4 h5
  rcases hm.nested hn with h | h | h | h | h
  · exact h
  · exact absurd he (nameRange_below hs hm hn h ht')
  · exact absurd he.symm (nameRange_below hs hn hm h ht)
  · omega
  · omega

/-- Nodes of rank 0 start with a token. -/
theorem childToks_ne (hs : Solid g) {n : Red} (hn : InTree g n) (hr : rank n.kind = 0) (he : mayBeEmpty n.kind = false) :
    n.childToks ≠ [] := by
  obtain ⟨⟨h1, h2, h3, _⟩, _⟩ := hn.frameOk hs
  obtain ⟨⟨k, cs, off⟩, up⟩ := n
  simp only [Red.kind] at *
  cases cs with
  | nil => exact absurd rfl (h3 he)
  | cons c cs =>
    cases c with
    | tok k' s => simp [Red.childToks, Red.els, childEls]
    | node k' cs' => simp only [HeadOk, hr] at h2; omega

theorem childToks_token {n : Red} {k : Kind} (h : (n.token k).isSome) : n.childToks ≠ [] := by
  intro hn
  simp [Red.token, hn] at h

/-- Nodes with a symbol have a token. -/
theorem IsSym.childToks (hs : Solid g) {s : Sym} {x : Red} (h : IsSym g s x) : x.childToks ≠ [] := by
  by_cases hr : rank x.kind = 0
  · exact childToks_ne hs (h.inTree hs).1 hr (h.nonempty hs)
  · have hc := h.cls hs
    have hk : x.kind = .OPERAND ∨ x.kind = .INDEX := by
      revert hc hr; cases x.kind <;> simp [symClass, rank, fieldSpace]
    cases h with
    | ref _ _ _ hi =>
      intro hn
      simp [indexOf, nameOf, Red.token, hn] at hi
    | module hm => rw [root_children hs hm] at hk; rcases hk with hk | hk <;> cases hk
    | field _ _ hsp => rcases hk with hk | hk <;> (rw [hk] at hsp; cases hsp)
    | slot hf _ hj =>
      obtain ⟨_, c, _, hc, hx⟩ := mem_localSlots hf (List.mem_of_getElem? hj)
      rcases hx with ⟨rfl, _⟩ | ⟨hk', _⟩
      · rcases hk with hk | hk <;> rcases hc with ⟨h, _⟩ | ⟨h, _⟩ <;> rw [hk] at h <;> cases h
      · rcases hk with hk | hk <;> (rw [hk] at hk'; cases hk')
    | block _ hl _ => rcases hk with hk | hk <;> (rw [hk] at hl; cases hl)

/-- The place shown for a symbol determines it. -/
theorem IsSym.place_inj (hs : Solid g) {s s' : Sym} {x x' : Red} (h : IsSym g s x) (h' : IsSym g s' x')
    {src : Text} {r : Range} (hr : IsRange src (nameRange x) r) (hr' : IsRange src (nameRange x') r) : x = x' ∧ s = s' := by
  have := nameRange_inj hs (h.inTree hs).1 (h'.inTree hs).1 (h.childToks hs) (h'.childToks hs) (isRange_inj hr hr')
  subst this
  exact ⟨rfl, h.det hs h'⟩

theorem mapL_all {f : α → Ans β} {l : List α} {bs : List β} (h : Ans.mapL f l = .done bs) : ∀ a ∈ l, ∃ b ∈ bs, f a = .done b := by
  intro a ha
  have : f a ∈ bs.map Ans.done := by rw [← mapL_done h]; exact List.mem_map_of_mem ha
  obtain ⟨b, h1, h2⟩ := List.mem_map.mp this
  exact ⟨b, h1, h2.symm⟩

/-- An answer shows all definitions. -/
theorem goto_located (hs : Solid g) {u v : Text} {t : Tok} (hc : CursorOn (Red.root g) (bytes u) t) {x : Red}
    (hx : t.parent = some x) {r : Red} {sp : Space} {i : Index} (hr : IsRef g x r sp i) {o : Option (DefResp Range)}
    (ho : gotoDefinition (u ++ v) (Red.root g) (posAfter u) = .done o) {d : Red} (hd : CodeDef sp r i d) :
    ∃ rng ∈ locsOf o, IsRange (u ++ v) (nameRange d) rng := by
  have hk : isRefNode x.kind = true := by
    rcases refersTo_kind hs hr.tree hr.refers with h | h <;> rw [h] <;> rfl
  obtain ⟨s, hsym⟩ := codeDef_sym hs hr hd
  have hmem := (mem_defs hs hr).mpr ⟨d, hsym, hd⟩
  unfold gotoDefinition at ho
  rw [cursor_token hs hc] at ho
  simp only [Ans.bindO, Ans.bind, hx, hk, if_true] at ho
  unfold defsOf at hmem
  cases hdef : (symbolTable (Red.root g)).definitions x.key with
  | none => rw [hdef] at hmem; cases hmem
  | some resp =>
    rw [hdef] at hmem ho
    simp only at ho
    cases hl : locate (u ++ v) (Red.root g) resp with
    | panic => rw [hl] at ho; cases ho
    | done l =>
      rw [hl] at ho
      cases ho
      have : ∃ rng, locationOf (u ++ v) (Red.root g) s = .done rng := by
        cases resp with
        | scalar s' =>
          simp only [Option.elim, DefResp.toList, List.mem_singleton] at hmem
          subst hmem
          simp only [locate] at hl
          cases hloc : locationOf (u ++ v) (Red.root g) s with
          | panic => rw [hloc] at hl; cases hl
          | done a => exact ⟨a, rfl⟩
        | array ss =>
          simp only [locate] at hl
          cases hm : Ans.mapL (locationOf (u ++ v) (Red.root g)) ss with
          | panic => rw [hm] at hl; cases hl
          | done a =>
            obtain ⟨b, _, hb⟩ := mapL_all hm s hmem
            exact ⟨b, hb⟩
      obtain ⟨rng, hrng⟩ := this
      exact ⟨rng, (locate_mem hl rng).mpr ⟨s, hmem, hrng⟩, (locationOf_iff hs hsym).mp hrng⟩

/-! ### Find references -/

/-- An answer shows all references. -/
theorem references_located (hs : Solid g) {u v : Text} {t : Tok} {x : Red} (hc : CursorOn (Red.root g) (bytes u) t)
    (hk : isRefToken t.kind = true) (hx : t.parent = some x) {incl : Bool} {o : Option (List Range)}
    (ho : findReferences (u ++ v) (Red.root g) (posAfter u) incl = .done o) {s : Sym} {y : Red}
    (hsm : s ∈ ((symbolTable (Red.root g)).references incl x.key).getD []) (hy : IsSym g s y) :
    ∃ rng ∈ o.getD [], IsRange (u ++ v) (nameRange y) rng := by
  unfold findReferences at ho
  rw [cursor_token hs hc] at ho
  simp only [Ans.bindO, Ans.bind, hk, if_true, hx] at ho
  cases hr : (symbolTable (Red.root g)).references incl x.key with
  | none => rw [hr] at hsm; cases hsm
  | some ss =>
    rw [hr] at ho hsm
    simp only at ho
    cases hm : Ans.mapL (locationOf (u ++ v) (Red.root g)) ss with
    | panic => rw [hm] at ho; cases ho
    | done ls =>
      rw [hm] at ho
      cases ho
      obtain ⟨b, hb1, hb2⟩ := mapL_all hm s hsm
      exact ⟨b, hb1, (locationOf_iff hs hy).mp hb2⟩

/-- What a find-references answer consists of. -/
theorem references_exact (hs : Solid g) {u v : Text} {t : Tok} {x : Red} (hc : CursorOn (Red.root g) (bytes u) t)
    (hk : isRefToken t.kind = true) (hx : t.parent = some x) {incl : Bool} {o : Option (List Range)}
    (ho : findReferences (u ++ v) (Red.root g) (posAfter u) incl = .done o) (rng : Range) :
    rng ∈ o.getD [] ↔ ∃ s y, s ∈ ((symbolTable (Red.root g)).references incl x.key).getD [] ∧ IsSym g s y ∧
      IsRange (u ++ v) (nameRange y) rng := by
  unfold findReferences at ho
  rw [cursor_token hs hc] at ho
  simp only [Ans.bindO, Ans.bind, hk, if_true, hx] at ho
  cases hr : (symbolTable (Red.root g)).references incl x.key with
  | none => rw [hr] at ho; cases ho; simp
  | some ss =>
    rw [hr] at ho
    simp only at ho
    cases hm : Ans.mapL (locationOf (u ++ v) (Red.root g)) ss with
    | panic => rw [hm] at ho; cases ho
    | done ls =>
      rw [hm] at ho
      cases ho
      simp only [Option.getD_some]
      rw [mapL_mem hm]
      constructor
      · rintro ⟨s, h1, h2⟩
        obtain ⟨y, hy⟩ := (mem_symbols_iff hs).mp (references_mem hr s h1)
        exact ⟨s, y, h1, hy, (locationOf_iff hs hy).mp h2⟩
      · rintro ⟨s, y, h1, h2, h3⟩
        exact ⟨s, h1, (locationOf_iff hs h2).mpr h3⟩

/-- The references of a module-level entity. -/
theorem references_field (hs : Solid g) {m d : Red} {sp : Space} {k : Nat} (hm : m ∈ (Red.root g).children)
    (hf : (fields m)[k]? = some d) (hsp : fieldSpace d.kind = some sp) {x r : Red} {sp' : Space} {i : Index}
    (hr : IsRef g x r sp' i) : refSymOf x r sp' i ∈ ((symbolTable (Red.root g)).references false d.key).getD [] ↔
      sp' = sp ∧ r = m ∧ Matches i k (nameOf d) := by
  have hms := fieldSpace_module hsp
  have hsym : IsSym g (fieldSymOf d m sp k) d := .field hm hf hsp
  have hmem := (mem_symbols_iff hs).mpr ⟨d, hsym⟩
  have hby := byKey_eq hs hmem
  have hby : (symbolTable (Red.root g)).byKey d.key = some (fieldSymOf d m sp k) := hby
  have key : ((symbolTable (Red.root g)).references false d.key) = some ((symbolTable (Red.root g)).symbols.filter fun s =>
      (s.kind == refSym sp && s.idx.isDefinedBy ⟨some k, nameOf d⟩ && s.region == m.key)) := by
    unfold SymbolTable.references
    rw [hby]
    revert hms
    cases sp <;> simp [isModuleSpace, fieldSymOf, defSym, SymKind.refKind, refSym]
  rw [key]
  simp only [Option.getD_some, List.mem_filter, Bool.and_eq_true, beq_iff_eq]
  constructor
  · rintro ⟨_, ⟨h1, h2⟩, h3⟩
    have e : sp' = sp := by
      have : refSym sp' = refSym sp := h1
      revert this; cases sp <;> cases sp' <;> simp [refSym]
    subst e
    exact ⟨rfl, module_key_inj hs (hr.module hs hms) hm h3, (isDefinedBy_iff _ _ _).mp h2⟩
  · rintro ⟨rfl, rfl, h⟩
    exact ⟨hr.mem hs, ⟨rfl, (isDefinedBy_iff _ _ _).mpr h⟩, rfl⟩

/-- The references of a parameter or local. -/
theorem references_slot (hs : Solid g) {f d : Red} {j : Nat} (hft : InTree g f) (hfk : f.kind = .MODULE_FIELD_FUNC)
    (hf : (localSlots f)[j]? = some d) {x r : Red} {sp' : Space} {i : Index}
    (hr : IsRef g x r sp' i) : refSymOf x r sp' i ∈ ((symbolTable (Red.root g)).references false d.key).getD [] ↔
      sp' = .local ∧ r = f ∧ Matches i j (nameOf d) := by
  have hsym : IsSym g (slotSymOf d f j) d := .slot hft hfk hf
  have hmem := (mem_symbols_iff hs).mpr ⟨d, hsym⟩
  have hby := byKey_eq hs hmem
  have hby : (symbolTable (Red.root g)).byKey d.key = some (slotSymOf d f j) := hby
  have key : ((symbolTable (Red.root g)).references false d.key) = some ((symbolTable (Red.root g)).symbols.filter fun s =>
      (s.kind == .localRef && s.idx.isDefinedBy ⟨some j, nameOf d⟩ && s.region == f.key)) := by
    unfold SymbolTable.references
    rw [hby]
    unfold slotSymOf
    simp only [Option.bind_some]
    by_cases hj : j < paramCount f
    · simp [hj, SymKind.refKind]
    · simp [hj, SymKind.refKind]
  rw [key]
  simp only [Option.getD_some, List.mem_filter, Bool.and_eq_true, beq_iff_eq]
  constructor
  · rintro ⟨_, ⟨h1, h2⟩, h3⟩
    have e : sp' = .local := by
      have : refSym sp' = .localRef := h1
      revert this; cases sp' <;> simp [refSym]
    subst e
    exact ⟨rfl, InTree.key_inj hs hr.scope_mem.2.1 hft h3 (by rw [hfk]; rfl), (isDefinedBy_iff _ _ _).mp h2⟩
  · rintro ⟨rfl, rfl, h⟩
    exact ⟨hr.mem hs, ⟨rfl, (isDefinedBy_iff _ _ _).mpr h⟩, rfl⟩

/-- The definitions of `x` contain `d` when the code takes `d` for a declaration of the index. -/
theorem goto_iff_codeDef (hs : Solid g) {u v : Text} {t : Tok} (hc : CursorOn (Red.root g) (bytes u) t) {x : Red}
    (hx : t.parent = some x) {sp : Space} {i : Index} (hr : RefersTo x sp) (hi : indexOf x = some i) {o : Option (DefResp Range)}
    (ho : gotoDefinition (u ++ v) (Red.root g) (posAfter u) = .done o) {d : Red} {s : Sym} (hd : IsSym g s d) :
    (∃ rng ∈ locsOf o, IsRange (u ++ v) (nameRange d) rng) ↔ ∃ r, IsRef g x r sp i ∧ CodeDef sp r i d := by
  obtain ⟨x', hx', hxt, _⟩ := tok_parent hc.mem
  rw [hx] at hx'; cases hx'
  constructor
  · rintro ⟨rng, h1, h2⟩
    obtain ⟨r, d', h3, h4, h5, h6⟩ := (goto_exact hs hc hx hr hi ho rng).mp h1
    have hR : IsRef g x r sp i := ⟨hxt, hr, h3, hi⟩
    obtain ⟨s', hs'⟩ := codeDef_sym hs hR h5
    have := (hd.place_inj hs hs' h2 h6).1
    subst this
    exact ⟨r, hR, h5⟩
  · rintro ⟨r, h1, h2⟩
    exact goto_located hs hc hx h1 ho h2

/-- The references of `d` contain `x` when the code takes the symbol of `x` for one of them. -/
theorem references_iff_sym (hs : Solid g) {u v : Text} {t : Tok} {d : Red} (hc : CursorOn (Red.root g) (bytes u) t)
    (hk : isNameToken t.kind = true) (hd : t.parent = some d) {incl : Bool} {o : Option (List Range)}
    (ho : findReferences (u ++ v) (Red.root g) (posAfter u) incl = .done o) {x r : Red} {sp : Space} {i : Index} (hr : IsRef g x r sp i) :
    (∃ rng ∈ o.getD [], IsRange (u ++ v) (nameRange x) rng) ↔
      refSymOf x r sp i ∈ ((symbolTable (Red.root g)).references incl d.key).getD [] := by
  have hk' : isRefToken t.kind = true := by revert hk; cases t.kind <;> simp [isNameToken, isRefToken]
  constructor
  · rintro ⟨rng, h1, h2⟩
    obtain ⟨s, y, h3, h4, h5⟩ := (references_exact hs hc hk' hd ho rng).mp h1
    have := hr.isSym.place_inj hs h4 h2 h5
    rw [this.2]; exact h3
  · intro h
    exact references_located hs hc hk' hd ho h hr.isSym

/-- A reference that has a symbol is one with a scope. -/
theorem sym_scope (hs : Solid g) {x : Red} {sp : Space} {i : Index} (hx : InTree g x)
    (hr : RefersTo x sp) (hi : indexOf x = some i) {s : Sym} (h4 : IsSym g s x) : ∃ r, IsRef g x r sp i := by
  have hk2 := refersTo_kind hs hx hr
  cases h4 with
  | ref _ h6 h7 h8 =>
    have := refersTo_fun h6 hr
    subst this
    exact ⟨_, hx, hr, h7, hi⟩
  | module hm => rw [root_children hs hm] at hk2; rcases hk2 with h | h <;> cases h
  | field _ _ hsp => rcases hk2 with h | h <;> rw [h] at hsp <;> cases hsp
  | slot hf _ hj =>
    obtain ⟨_, c, _, hc, hx⟩ := mem_localSlots hf (List.mem_of_getElem? hj)
    rcases hx with ⟨rfl, _⟩ | ⟨hk', _⟩
    · rcases hc with ⟨h, _⟩ | ⟨h, _⟩ <;> rw [h] at hk2 <;> rcases hk2 with h | h <;> cases h
    · rw [hk'] at hk2; rcases hk2 with h | h <;> cases h
  | block _ hl _ => rcases hk2 with h | h <;> rw [h] at hl <;> cases hl

/-- A reference that is listed is one with a scope. -/
theorem references_scope (hs : Solid g) {u v : Text} {t : Tok} {d : Red} (hc : CursorOn (Red.root g) (bytes u) t)
    (hk : isNameToken t.kind = true) (hd : t.parent = some d) {incl : Bool} {o : Option (List Range)}
    (ho : findReferences (u ++ v) (Red.root g) (posAfter u) incl = .done o) {x : Red} {sp : Space} {i : Index} (hx : InTree g x)
    (hr : RefersTo x sp) (hi : indexOf x = some i) (h : ∃ rng ∈ o.getD [], IsRange (u ++ v) (nameRange x) rng) :
    ∃ r, IsRef g x r sp i := by
  have hk' : isRefToken t.kind = true := by revert hk; cases t.kind <;> simp [isNameToken, isRefToken]
  obtain ⟨rng, h1, h2⟩ := h
  obtain ⟨s, y, h3, h4, h5⟩ := (references_exact hs hc hk' hd ho rng).mp h1
  have hxt : x.childToks ≠ [] := by
    intro hn
    simp [indexOf, nameOf, Red.token, hn] at hi
  have := nameRange_inj hs hx (h4.inTree hs).1 hxt (h4.childToks hs) (isRange_inj h2 h5)
  subst this
  exact sym_scope hs hx hr hi h4

end Verif
