import Verif.Lemmas.Hints
/-!
Lemmas: go-to-declaration and go-to-type-definition.
-/
namespace Verif
open Spec

variable {g : Green}

theorem findDefs_ref (hs : Solid g) {x : Red} (hx : InTree g x) {ds : List Sym}
    (h : (symbolTable (Red.root g)).findDefs x.key = some ds) : ∃ r sp i, IsRef g x r sp i ∧ isModuleSpace sp = true := by
  obtain ⟨r, sp, i, hR⟩ : ∃ r sp i, IsRef g x r sp i := by
    cases hl : (symbolTable (Red.root g)).findParamOrLocalDef x.key with
    | some s => exact definitions_ref hs hx (d := .scalar s) (by unfold SymbolTable.definitions; rw [hl])
    | none => exact definitions_ref hs hx (d := .array ds) (by unfold SymbolTable.definitions; rw [hl, h])
  refine ⟨r, sp, i, hR, ?_⟩
  cases hm : isModuleSpace sp with
  | true => rfl
  | false => rw [findDefs_other hs hR hm] at h; cases h

/-- For a reference to a module-level entity, go-to-definition looks at nothing else. -/
theorem definitions_module (hs : Solid g) {x : Red} (hx : InTree g x) {sp : Space} (hr : RefersTo x sp)
    (hm : isModuleSpace sp = true) :
    (symbolTable (Red.root g)).definitions x.key = ((symbolTable (Red.root g)).findDefs x.key).map .array := by
  cases hd : (symbolTable (Red.root g)).definitions x.key with
  | none =>
    unfold SymbolTable.definitions at hd
    split at hd
    · cases hd
    · cases hf : (symbolTable (Red.root g)).findDefs x.key with
      | none => rfl
      | some ss => rw [hf] at hd; cases hd
  | some d =>
    obtain ⟨r, sp', i, hR⟩ := definitions_ref hs hx hd
    have e := refersTo_fun hr hR.refers
    subst e
    obtain ⟨ds, h1, _⟩ := findDefs_module hs hR hm
    have hl := findLocal_other hs hR (by rintro rfl; cases hm)
    unfold SymbolTable.definitions at hd
    rw [hl, h1] at hd
    rw [h1, ← hd]
    rfl

/-- The symbols found for a reference to a module-level entity. -/
theorem mem_findDefs (hs : Solid g) {x r : Red} {sp : Space} {i : Index} (h : IsRef g x r sp i)
    (hm : isModuleSpace sp = true) {ds : List Sym} (hd : (symbolTable (Red.root g)).findDefs x.key = some ds) (s : Sym) :
    s ∈ ds ↔ ∃ d, IsSym g s d ∧ CodeDef sp r i d := by
  rw [← mem_defs hs h]
  unfold defsOf
  rw [definitions_module hs h.tree h.refers hm, hd]
  rfl

theorem typeDefs_mem {t : SymbolTable} {root : Red} : ∀ {ss ts : List Sym}, typeDefs t root ss = .done ts → ∀ s',
    s' ∈ ts ↔ ∃ s ∈ ss, ∃ n u y ds, s.key.toNode root = some n ∧ n.childOf .TYPE_USE = some u ∧ u.childOf .INDEX = some y ∧
      t.findDefs y.key = some ds ∧ s' ∈ ds
  | [], ts, h, s' => by cases h; simp
  | s :: ss, ts, h, s' => by
    unfold typeDefs at h
    cases hn : s.key.toNode root with
    | none => rw [hn] at h; cases h
    | some n =>
      cases hr : typeDefs t root ss with
      | panic => rw [hn, hr] at h; cases h
      | done rest =>
        rw [hn, hr] at h
        simp only [Ans.ofOption, Ans.bind] at h
        cases h
        rw [List.mem_append, typeDefs_mem hr s']
        constructor
        · rintro (h | ⟨a, h1, h2⟩)
          · cases hu : n.childOf .TYPE_USE with
            | none => rw [hu] at h; simp at h
            | some u =>
              cases hy : u.childOf .INDEX with
              | none => rw [hu] at h; simp [hy] at h
              | some y =>
                cases hd : t.findDefs y.key with
                | none => rw [hu] at h; simp [hy, hd] at h
                | some ds =>
                  rw [hu] at h
                  simp only [Option.bind_some, hy, hd, Option.getD_some] at h
                  exact ⟨s, by simp, n, u, y, ds, hn, hu, hy, hd, h⟩
          · exact ⟨a, List.mem_cons_of_mem _ h1, h2⟩
        · rintro ⟨a, h1, n', u, y, ds, h2, h3, h4, h5, h6⟩
          rcases List.mem_cons.mp h1 with rfl | h1
          · rw [hn] at h2; cases h2
            left; rw [h3]; simp only [Option.bind_some, h4, h5, Option.getD_some]; exact h6
          · exact .inr ⟨a, h1, n', u, y, ds, h2, h3, h4, h5, h6⟩

/-- The index of the type of a declaration, as a reference. -/
theorem typeIndex_ref (hs : Solid g) {r f u y : Red} (hr : r ∈ (Red.root g).children) (hf : f ∈ r.descendants)
    (hu : f.childOf .TYPE_USE = some u) (hy : u.childOf .INDEX = some y) :
    InTree g y ∧ RefersTo y .type ∧ scopeOf .type y = some r := by
  have hrt := (InTree.root g).child hr
  have hft := hrt.descendant hf
  have hum : u ∈ f.children := List.mem_of_find?_eq_some hu
  have hym : y ∈ u.children := List.mem_of_find?_eq_some hy
  have huk : u.kind = .TYPE_USE := by have := List.find?_some hu; simpa using this
  have hut := hft.child hum
  have hyt := hut.child hym
  refine ⟨hyt, .type (Red.parent_of_child hym) huk hy, ?_⟩
  have ha : r ∈ y.ancestors := by
    have h1 := (hrt.mem_descendants hft).mp hf
    have h2 := (hft.mem_descendants hut).mp (Red.children_mem_descendants hum)
    have h3 := (hut.mem_descendants hyt).mp (Red.children_mem_descendants hym)
    exact Red.ancestors_trans h3 (Red.ancestors_trans h2 h1)
  exact module_scope hs hr ((hrt.mem_descendants hyt).mpr ha)

/-- The answer of go-to-type-definition for the cursor on an operand of an instruction. -/
theorem gotoType_exact (hs : Solid g) {u v : Text} {t : Tok} (hc : CursorOn (Red.root g) (bytes u) t) {x p : Red}
    (hx : t.parent = some x) (hp : x.parent = some p) (hpk : p.kind = .PLAIN_INSTR) {sp : Space} {i : Index}
    (hr : RefersTo x sp) (hi : indexOf x = some i) (hm : isModuleSpace sp = true) {o : Option (DefResp Range)}
    (ho : gotoTypeDefinition (u ++ v) (Red.root g) (posAfter u) = .done o) (rng : Range) :
    rng ∈ locsOf o ↔ ∃ r f tu y j d, scopeOf sp x = some r ∧ CodeDef sp r i f ∧ f.childOf .TYPE_USE = some tu ∧
      tu.childOf .INDEX = some y ∧ RefersTo y .type ∧ scopeOf .type y = some r ∧ indexOf y = some j ∧ CodeDef .type r j d ∧
      IsRange (u ++ v) (nameRange d) rng := by
  obtain ⟨x', hx', hxt, _⟩ := tok_parent hc.mem
  rw [hx] at hx'; cases hx'
  have hk : isRefNode x.kind = true := by
    rcases refersTo_kind hs hxt hr with h | h <;> rw [h] <;> rfl
  unfold gotoTypeDefinition at ho
  rw [cursor_token hs hc] at ho
  simp only [Ans.bindO, Ans.bind, hx, hk, if_true, hp, hpk, beq_self_eq_true] at ho
  cases hsc : scopeOf sp x with
  | none =>
    cases hf : (symbolTable (Red.root g)).findDefs x.key with
    | none =>
      rw [hf] at ho; cases ho
      simp [locsOf]
    | some ss =>
      obtain ⟨r, sp', i', hR, _⟩ := findDefs_ref hs hxt hf
      have e := refersTo_fun hr hR.refers
      subst e
      rw [hR.scope] at hsc; cases hsc
  | some r =>
    have hR : IsRef g x r sp i := ⟨hxt, hr, hsc, hi⟩
    obtain ⟨ss, hf, _⟩ := findDefs_module hs hR hm
    rw [hf] at ho
    simp only at ho
    cases htd : typeDefs (symbolTable (Red.root g)) (Red.root g) ss with
    | panic => rw [htd] at ho; cases ho
    | done ts =>
      rw [htd] at ho
      simp only at ho
      cases hl : locate (u ++ v) (Red.root g) (.array ts) with
      | panic => rw [hl] at ho; cases ho
      | done l =>
        rw [hl] at ho; cases ho
        have hrm := hR.module hs hm
        have key : ∀ f, CodeDef sp r i f → f ∈ r.descendants := by
          intro f hcd
          cases i with
          | name n => exact (List.mem_filter.mp ((codeDef_name hm).mp hcd).1).1
          | num k => exact (List.mem_filter.mp (List.mem_of_getElem? ((codeDef_num hm).mp hcd).1)).1
        unfold locsOf
        rw [Option.elim, locate_mem hl]
        simp only [DefResp.toList, typeDefs_mem htd]
        constructor
        · rintro ⟨s', ⟨s, h1, f, tu, y, ds, h2, h3, h4, h5, h6⟩, h7⟩
          obtain ⟨f', hf1, hf2⟩ := (mem_findDefs hs hR hm hf s).mp h1
          have e : f' = f := by
            have := h2
            rw [(hf1.inTree hs).2.1, (hf1.inTree hs).1.toNode hs (hf1.nonempty hs)] at this
            cases this; rfl
          subst e
          obtain ⟨hy1, hy2, hy3⟩ := typeIndex_ref hs hrm (key _ hf2) h3 h4
          obtain ⟨r', sp', j, hRy, _⟩ := findDefs_ref hs hy1 h5
          have e := refersTo_fun hy2 hRy.refers
          subst e
          have e := hRy.scope.symm.trans hy3
          cases e
          obtain ⟨d, hd1, hd2⟩ := (mem_findDefs hs hRy rfl h5 s').mp h6
          exact ⟨r, f', tu, y, j, d, rfl, hf2, h3, h4, hy2, hy3, hRy.idx, hd2, (locationOf_iff hs hd1).mp h7⟩
        · rintro ⟨r', f, tu, y, j, d, h1, h2, h3, h4, h5, h6, h7, h8, h9⟩
          cases h1
          obtain ⟨hy1, _, _⟩ := typeIndex_ref hs hrm (key _ h2) h3 h4
          have hRy : IsRef g y r .type j := ⟨hy1, h5, h6, h7⟩
          obtain ⟨ds, hds, _⟩ := findDefs_module hs hRy rfl
          obtain ⟨s, hsf⟩ := codeDef_sym hs hR h2
          obtain ⟨s', hsd⟩ := codeDef_sym hs hRy h8
          refine ⟨s', ⟨s, (mem_findDefs hs hR hm hf s).mpr ⟨f, hsf, h2⟩, f, tu, y, ds, ?_, h3, h4, hds,
            (mem_findDefs hs hRy rfl hds s').mpr ⟨d, hsd, h8⟩⟩, (locationOf_iff hs hsd).mpr h9⟩
          rw [(hsf.inTree hs).2.1, (hsf.inTree hs).1.toNode hs (hsf.nonempty hs)]

/-- No answer of go-to-type-definition elsewhere. -/
theorem gotoType_none (hs : Solid g) {u v : Text} {t : Tok} (hc : CursorOn (Red.root g) (bytes u) t) {x : Red}
    (hx : t.parent = some x)
    (hn : ∀ p sp i, x.parent = some p → p.kind = .PLAIN_INSTR → RefersTo x sp → indexOf x = some i → isModuleSpace sp = false) :
    gotoTypeDefinition (u ++ v) (Red.root g) (posAfter u) = .done none := by
  obtain ⟨x', hx', hxt, _⟩ := tok_parent hc.mem
  rw [hx] at hx'; cases hx'
  unfold gotoTypeDefinition
  rw [cursor_token hs hc]
  simp only [Ans.bindO, Ans.bind, hx]
  split
  · cases hp : x.parent with
    | none => rfl
    | some p =>
      simp only
      split
      · rename_i hk
        cases hf : (symbolTable (Red.root g)).findDefs x.key with
        | none => rfl
        | some ss =>
          obtain ⟨r, sp, i, hR, hm⟩ := findDefs_ref hs hxt hf
          rw [hn p sp i hp (by simpa using hk) hR.refers hR.idx] at hm
          cases hm
      · rfl
  · rfl

/-- Go-to-declaration on an operand that refers to a module-level entity. -/
theorem gotoDecl_same (hs : Solid g) {u v : Text} {t : Tok} (hc : CursorOn (Red.root g) (bytes u) t) {x : Red}
    (hx : t.parent = some x) (hk : x.kind = .OPERAND) {sp : Space} (hr : RefersTo x sp) (hm : isModuleSpace sp = true) :
    gotoDeclaration (u ++ v) (Red.root g) (posAfter u) = gotoDefinition (u ++ v) (Red.root g) (posAfter u) := by
  obtain ⟨x', hx', hxt, _⟩ := tok_parent hc.mem
  rw [hx] at hx'; cases hx'
  have hrk : isRefNode x.kind = true := by rw [hk]; rfl
  unfold gotoDeclaration gotoDefinition
  rw [cursor_token hs hc]
  simp only [Ans.bindO, Ans.bind, hx, hrk, hk, if_true, beq_self_eq_true, definitions_module hs hxt hr hm]
  cases (symbolTable (Red.root g)).findDefs x.key <;> rfl

/-- No answer of go-to-declaration elsewhere. -/
theorem gotoDecl_none (hs : Solid g) {u v : Text} {t : Tok} (hc : CursorOn (Red.root g) (bytes u) t) {x : Red}
    (hx : t.parent = some x) (hn : ∀ sp, x.kind = .OPERAND → RefersTo x sp → isModuleSpace sp = false) :
    gotoDeclaration (u ++ v) (Red.root g) (posAfter u) = .done none := by
  obtain ⟨x', hx', hxt, _⟩ := tok_parent hc.mem
  rw [hx] at hx'; cases hx'
  unfold gotoDeclaration
  rw [cursor_token hs hc]
  simp only [Ans.bindO, Ans.bind, hx]
  split
  · rename_i hk
    cases hf : (symbolTable (Red.root g)).findDefs x.key with
    | none => rfl
    | some ss =>
      obtain ⟨r, sp, i, hR, hm⟩ := findDefs_ref hs hxt hf
      rw [hn sp (by simpa using hk) hR.refers] at hm
      cases hm
  · rfl

end Verif
