import Verif.Lemmas.SameNav
import Verif.Lemmas.Offsets
import Verif.Spec.SameRename
/-!
Renaming in documents that differ in white space and comments only, and the other ways to a definition.
-/
namespace Verif
namespace Stripped
open Spec

variable {g g' : Green} {x x' : Red} {src src' : Text}

theorem any_rel {α β : Type} {R : α → β → Prop} {p : α → Bool} {q : β → Bool} (hpq : ∀ a b, R a b → p a = q b) {l : List α}
    {l' : List β} (h : All2 R l l') : l.any p = l'.any q := by
  induction h with
  | nil => rfl
  | cons hab _ ih => rw [List.any_cons, List.any_cons, hpq _ _ hab, ih]

section
variable (hs : Solid g) (hs' : Solid g') (hd : DerivedL g.children) (hd' : DerivedL g'.children) (he : strip g = strip g')
include hs hs' hd hd' he

theorem targets_any {s s' o o' : Sym} (h : SymBoth g g' s s') (k : SymBoth g g' o o') :
    ((symbolTable (Red.root g)).blocks.any fun b => b.ref == s.key && b.def_ == o.key) =
      (symbolTable (Red.root g')).blocks.any fun b => b.ref == s'.key && b.def_ == o'.key := by
  refine any_rel (fun a b hab => ?_) (blocks_rel hs hs' hd hd' he)
  obtain ⟨c, c', q, q', h1, h2, _, h3, h4, h5, h6, _⟩ := hab
  obtain ⟨y, y', _, _, p⟩ := SymBoth.pair hs hs' hd hd' h
  have e1 := key_iff hs hs' hd hd' h1 p.rel
  rw [← (p.sym.inTree hs).2.1, ← (p.sym'.inTree hs').2.1] at e1
  rw [h3, h4, h5, h6, e1, key_comm q.key, key_iff hs hs' hd hd' k h2, key_comm q'.key]

theorem isRenamed_rel {s s' o o' : Sym} (h : SymBoth g g' s s') (k : SymBoth g g' o o') (n : Text) :
    (symbolTable (Red.root g)).isRenamed s n o = (symbolTable (Red.root g')).isRenamed s' n o' := by
  unfold SymbolTable.isRenamed
  rw [k.1.kind_eq, symSame_iff hs hs' hd hd' k h, targets_any hs hs' hd hd' he h k, targets_any hs hs' hd hd' he k h]
  obtain ⟨y, y', _, _, p⟩ := SymBoth.pair hs hs' hd hd' h
  rw [(p.sym.inTree hs).2.1, (p.sym'.inTree hs').2.1, region_iff hs hs' hd hd' k h, p.idx]
  have hb := blockDef_rel hs hs' hd hd' he p.rel
  generalize (symbolTable (Red.root g)).findBlockDef y.key = a, (symbolTable (Red.root g')).findBlockDef y'.key = b at hb
  cases hb with
  | none => rfl
  | some hb => simp only [targets_any hs hs' hd hd' he k hb]

omit hd hd' he in
theorem ident_name (hx : InTree g x) {t : Tok} (h : x.token .IDENT = some t) : nameRange x = (t.off, t.stop) := by
  rw [← symbolRange_eq]
  unfold symbolRange
  rw [h]

theorem renamedTokens_rel : ∀ {ss ss' : List Sym}, All2 (SymBoth g g') ss ss' → ∀ {ts ts' : List Tok},
    renamedTokens (Red.root g) ss = .done ts → renamedTokens (Red.root g') ss' = .done ts' →
    All2 (fun t t' : Tok => SamePlace g g' (t.off, t.stop) (t'.off, t'.stop)) ts ts'
  | _, _, .nil, _, _, h, h' => by cases h; cases h'; exact .nil
  | s :: ss, s' :: ss', .cons hab t, ts, ts', h, h' => by
    obtain ⟨y, y', _, _, p⟩ := SymBoth.pair hs hs' hd hd' hab
    obtain ⟨j, p1, p2⟩ := (p.rel.twin hs hs' he p.inked').place
    rw [renamedTokens, (p.sym.inTree hs).2.1, p.rel.left.toNode hs (p.sym.nonempty hs)] at h
    rw [renamedTokens, (p.sym'.inTree hs').2.1, p.rel.right.toNode hs' (p.sym'.nonempty hs')] at h'
    obtain ⟨_, hn, h⟩ := bind_done h
    obtain ⟨rest, hr, h⟩ := bind_done h
    obtain ⟨_, hn', h'⟩ := bind_done h'
    obtain ⟨rest', hr', h'⟩ := bind_done h'
    cases hn; cases hn'; cases h; cases h'
    refine All2.append ?_ (renamedTokens_rel t hr hr')
    refine Opt2.toList ?_
    have hk := p.rel.token hs hs' (k := .IDENT) rfl
    generalize e1 : y.token .IDENT = u, e2 : y'.token .IDENT = v at hk
    cases hk with
    | none => exact .none
    | some _ =>
      refine .some ?_
      rw [← ident_name hs hs' p.rel.left e1, ← ident_name hs' hs p.rel.right e2]
      exact .name p1 p2

theorem typeDefs_rel : ∀ {ss ss' : List Sym}, All2 (SymBoth g g') ss ss' → ∀ {ts ts' : List Sym},
    typeDefs (symbolTable (Red.root g)) (Red.root g) ss = .done ts → typeDefs (symbolTable (Red.root g')) (Red.root g') ss' = .done ts' →
    All2 (SymBoth g g') ts ts'
  | _, _, .nil, _, _, h, h' => by cases h; cases h'; exact .nil
  | s :: ss, s' :: ss', .cons hab t, ts, ts', h, h' => by
    obtain ⟨y, y', _, _, p⟩ := SymBoth.pair hs hs' hd hd' hab
    rw [typeDefs, (p.sym.inTree hs).2.1, p.rel.left.toNode hs (p.sym.nonempty hs)] at h
    rw [typeDefs, (p.sym'.inTree hs').2.1, p.rel.right.toNode hs' (p.sym'.nonempty hs')] at h'
    obtain ⟨_, hn, h⟩ := bind_done h
    obtain ⟨rest, hr, h⟩ := bind_done h
    obtain ⟨_, hn', h'⟩ := bind_done h'
    obtain ⟨rest', hr', h'⟩ := bind_done h'
    cases hn; cases hn'; cases h; cases h'
    refine All2.append ?_ (typeDefs_rel t hr hr')
    have : Opt2 (All2 (SymBoth g g')) ((y.childOf .TYPE_USE).bind fun tu => (tu.childOf .INDEX).bind fun i => (symbolTable (Red.root g)).findDefs i.key)
        ((y'.childOf .TYPE_USE).bind fun tu => (tu.childOf .INDEX).bind fun i => (symbolTable (Red.root g')).findDefs i.key) :=
      (p.rel.childOf hs hs' .TYPE_USE).bind fun a b hab => (hab.childOf hs hs' .INDEX).bind fun c d hcd => findDefs_rel hs hs' hd hd' he hcd
    generalize ((y.childOf .TYPE_USE).bind fun tu => (tu.childOf .INDEX).bind fun i => (symbolTable (Red.root g)).findDefs i.key) = a,
      ((y'.childOf .TYPE_USE).bind fun tu => (tu.childOf .INDEX).bind fun i => (symbolTable (Red.root g')).findDefs i.key) = b at this
    cases this with
    | none => exact .nil
    | some h => exact h

theorem renameImpl_rel {t t' : Tok} (h : TokRel g g' t t') (name : Text) {o o' : Option (List TextEdit)}
    (h1 : renameImpl src (Red.root g) name t = .done o) (h2 : renameImpl src' (Red.root g') name t' = .done o') :
    SameRenaming g g' src src' (.edits o) (.edits o') := by
  obtain ⟨x, x', p1, p2, hx⟩ := h.parent hs hs'
  unfold renameImpl at h1 h2
  rw [p1] at h1
  rw [p2] at h2
  simp only at h1 h2
  have hb := byKey_rel hs hs' hd hd' he hx
  generalize (symbolTable (Red.root g)).byKey x.key = a, (symbolTable (Red.root g')).byKey x'.key = b at hb h1 h2
  cases hb with
  | none => cases h1; cases h2; exact .none
  | @some s s' hss =>
    simp only at h1 h2
    obtain ⟨ts, e1, h1⟩ := bind_done h1
    obtain ⟨es, f1, h1⟩ := bind_done h1
    obtain ⟨ts', e2, h2⟩ := bind_done h2
    obtain ⟨es', f2, h2⟩ := bind_done h2
    cases h1; cases h2
    rw [← h.text] at e2
    have hts := renamedTokens_rel hs hs' hd hd' he
      (All2.filter (R := SymBoth g g') (p := (symbolTable (Red.root g)).isRenamed s t.text)
        (q := (symbolTable (Red.root g')).isRenamed s' t.text) (fun a b hab => isRenamed_rel hs hs' hd hd' he hss hab t.text)
        (symbols_iso hs hs' he).mem_both) e1 e2
    have := mapL_rel (S := fun e e' : TextEdit => e'.newText = e.newText ∧ SameRange g g' src src' e.range e'.range)
      (fun a b hab o o' k k' => by
        obtain ⟨r, hr, k⟩ := bind_done k
        obtain ⟨r', hr', k'⟩ := bind_done k'
        cases k; cases k'
        exact ⟨rfl, _, _, hab, rowanRangeToLsp_iff.mp (ofOption_done hr), rowanRangeToLsp_iff.mp (ofOption_done hr')⟩) hts f1 f2
    exact .some ⟨this.length.symm, this.getElem⟩

end

/-- The same renamings. -/
theorem same_renames {g g' : Green} (hs : Solid g) (hs' : Solid g') (hd : DerivedL g.children) (hd' : DerivedL g'.children)
    (he : strip g = strip g') {src src' dr dr' : Text} (ht : g.text ++ dr = src) (ht' : g'.text ++ dr' = src') :
    SameRenames g g' src src' := by
  have hl := tokens_rel hs hs' he
  refine ⟨hl.length, fun i t t' h1 h2 u v u' v' hu hu' hc hc' name => ?_⟩
  have hr : TokRel g g' t t' := hl.getElem i t t' h1 h2
  subst hu hu'
  obtain ⟨r, hr1⟩ := rename_ok hs ht (cursor_offset hc) name
  obtain ⟨r', hr2⟩ := rename_ok hs' ht' (cursor_offset hc') name
  refine ⟨r, r', hr1, hr2, ?_⟩
  unfold rename at hr1 hr2
  rw [cursor_token hs hc] at hr1
  rw [cursor_token hs' hc'] at hr2
  split at hr1
  · rename_i hv
    rw [if_pos hv] at hr2
    simp only [Ans.bind] at hr1 hr2
    rw [hr.kind] at hr1
    split at hr1
    · rename_i hk
      rw [if_pos hk] at hr2
      cases k1 : renameImpl (u ++ v) (Red.root g) name t with
      | panic => rw [k1] at hr1; cases hr1
      | done es =>
        cases k2 : renameImpl (u' ++ v') (Red.root g') name t' with
        | panic => rw [k2] at hr2; cases hr2
        | done es' =>
          rw [k1] at hr1; rw [k2] at hr2
          cases hr1; cases hr2
          exact renameImpl_rel hs hs' hd hd' he hr name k1 k2
    · rename_i hk
      rw [if_neg hk] at hr2
      cases hr1; cases hr2
      exact .cantRename
  · rename_i hv
    rw [if_neg hv] at hr2
    cases hr1; cases hr2
    exact .badName

theorem locate_array {src : Text} {root : Red} {ss : List Sym} {o : Option (DefResp Range)}
    (h : ((locate src root (.array ss)).bind fun l => .done (some l)) = Ans.done o) :
    Ans.mapL (locationOf src root) ss = .done (locsOf o) := by
  obtain ⟨l, h1, h⟩ := bind_done h
  cases h
  unfold locate at h1
  obtain ⟨ls, h2, h1⟩ := bind_done h1
  cases h1
  exact h2

/-- The same declarations and definitions of types. -/
theorem same_origins {g g' : Green} (hs : Solid g) (hs' : Solid g') (hd : DerivedL g.children) (hd' : DerivedL g'.children)
    (he : strip g = strip g') {src src' dr dr' : Text} (ht : g.text ++ dr = src) (ht' : g'.text ++ dr' = src') :
    SameOrigins g g' src src' := by
  refine ⟨(tokens_rel hs hs' he).length, ?_⟩
  intro i t t' h1 h2 u v u' v' hu hu' hc hc'
  have hr : TokRel g g' t t' := (tokens_rel hs hs' he).getElem i t t' h1 h2
  obtain ⟨x, x', p1, p2, hx⟩ := hr.parent hs hs'
  subst hu hu'
  have nil : SameRanges g g' (u ++ v) (u' ++ v') [] [] := ⟨rfl, fun i a b h => by cases h⟩
  have hdefs := findDefs_rel hs hs' hd hd' he hx
  have arr : ∀ {ss ss' : List Sym} {o o' : Option (DefResp Range)}, All2 (SymBoth g g') ss ss' →
      ((locate (u ++ v) (Red.root g) (.array ss)).bind fun l => .done (some l)) = Ans.done o →
      ((locate (u' ++ v') (Red.root g') (.array ss')).bind fun l => .done (some l)) = Ans.done o' →
      SameRanges g g' (u ++ v) (u' ++ v') (locsOf o) (locsOf o') := by
    intro ss ss' o o' h a b
    have := mapL_rel (R := SymBoth g g') (S := SameRange g g' (u ++ v) (u' ++ v')) (f := locationOf (u ++ v) (Red.root g))
      (f' := locationOf (u' ++ v') (Red.root g')) (fun a b hab o o' k k' => location_rel hs hs' hd hd' he hab k k') h
      (locate_array a) (locate_array b)
    exact ⟨this.length.symm, this.getElem⟩
  obtain ⟨o, ho⟩ := gotoTypeDefinition_ok hs ht (cursor_offset hc)
  obtain ⟨o', ho'⟩ := gotoTypeDefinition_ok hs' ht' (cursor_offset hc')
  obtain ⟨q, hq⟩ := gotoDeclaration_ok hs ht (cursor_offset hc)
  obtain ⟨q', hq'⟩ := gotoDeclaration_ok hs' ht' (cursor_offset hc')
  refine ⟨⟨o, o', ho, ho', ?_⟩, q, q', hq, hq', ?_⟩
  · unfold gotoTypeDefinition at ho ho'
    rw [cursor_token hs hc, bindO_of_some, p1] at ho
    rw [cursor_token hs' hc', bindO_of_some, p2] at ho'
    simp only at ho ho'
    rw [hx.kind] at ho
    split at ho
    · rename_i hk
      rw [if_pos hk] at ho'
      have hp := hx.parent
      generalize x.parent = a, x'.parent = b at hp ho ho'
      cases hp with
      | none => cases ho; cases ho'; exact nil
      | @some a b hab =>
        simp only at ho ho'
        rw [hab.kind] at ho
        split at ho
        · rename_i hk
          rw [if_pos hk] at ho'
          generalize (symbolTable (Red.root g)).findDefs x.key = a, (symbolTable (Red.root g')).findDefs x'.key = b at hdefs ho ho'
          cases hdefs with
          | none => cases ho; cases ho'; exact nil
          | some hdd =>
            simp only at ho ho'
            obtain ⟨ts, e1, ho⟩ := bind_done ho
            obtain ⟨ts', e2, ho'⟩ := bind_done ho'
            exact arr (typeDefs_rel hs hs' hd hd' he hdd e1 e2) ho ho'
        · rename_i hk
          rw [if_neg hk] at ho'
          cases ho; cases ho'; exact nil
    · rename_i hk
      rw [if_neg hk] at ho'
      cases ho; cases ho'; exact nil
  · unfold gotoDeclaration at hq hq'
    rw [cursor_token hs hc, bindO_of_some, p1] at hq
    rw [cursor_token hs' hc', bindO_of_some, p2] at hq'
    simp only at hq hq'
    rw [hx.kind] at hq
    split at hq
    · rename_i hk
      rw [if_pos hk] at hq'
      generalize (symbolTable (Red.root g)).findDefs x.key = a, (symbolTable (Red.root g')).findDefs x'.key = b at hdefs hq hq'
      cases hdefs with
      | none => cases hq; cases hq'; exact nil
      | some hdd => exact arr hdd hq hq'
    · rename_i hk
      rw [if_neg hk] at hq'
      cases hq; cases hq'; exact nil

end Stripped
end Verif
