import Verif.Lemmas.SameNav
import Verif.Lemmas.Hover
import Verif.Spec.SameHover
/-!
Hover in documents that differ in white space and comments only.
-/
namespace Verif
namespace Stripped
open Spec

variable {g g' : Green} {x x' : Red} {src src' : Text}

/-- The definitions of a reference are of one kind. -/
theorem findDefs_kind {t : SymbolTable} {key : Key} {s : Sym} (h : t.byKey key = some s) {ds : List Sym} (hd : t.findDefs key = some ds) :
    ∀ d ∈ ds, s.kind.defKind = some d.kind := by
  intro d hm
  unfold SymbolTable.findDefs at hd
  rw [h, Option.bind_some] at hd
  obtain ⟨k, hk, rfl⟩ := Option.map_eq_some_iff.mp hd
  have := (List.mem_filter.mp hm).2
  simp only [Bool.and_eq_true, beq_iff_eq] at this
  rw [hk, this.1.2]

section
variable (hs : Solid g) (hs' : Solid g') (hd : DerivedL g.children) (hd' : DerivedL g'.children) (he : strip g = strip g')
  (h0 : ValOk g) (h0' : ValOk g') (hg : (Red.root g).green = g) (hg' : (Red.root g').green = g') (hdoc : SameDocs g g')
include hs hs' hd hd'

theorem localHover_rel {s s' : Sym} (h : SymBoth g g' s s') : localHover s = localHover s' := by
  obtain ⟨y, y', _, _, p⟩ := SymBoth.pair hs hs' hd hd' h
  unfold localHover
  rw [p.kind, p.idx, (p.sym.inTree hs).2.2, (p.sym'.inTree hs').2.2, p.rel.extractType]

theorem typeHover_rel {s s' : Sym} (h : SymBoth g g' s s') : typeHover s = typeHover s' := by
  obtain ⟨y, y', _, _, p⟩ := SymBoth.pair hs hs' hd hd' h
  have : typeSigText s.green = typeSigText s'.green := by
    unfold typeSigText funcTypeOf
    rw [(p.sym.inTree hs).2.2, (p.sym'.inTree hs').2.2, find_green, find_green]
    have := p.rel.childOf hs hs' .FUNC_TYPE
    generalize y.childOf .FUNC_TYPE = a, y'.childOf .FUNC_TYPE = b at this
    cases this with
    | none => rfl
    | some h2 => simp only [Option.map_some, h2.extractSig hs hs']
  unfold typeHover
  rw [this, p.kind, p.idx]

include h0 h0' hg hg'

omit hd hd' in
theorem valText_rel (h : Rel g g' x x') (hk : x.kind = .VAL_TYPE) : x.green.text = x'.green.text := by
  have v := h.left.valOk h0 hg
  have v' := h.right.valOk h0' hg'
  obtain ⟨ty, e1, e2⟩ := writtenType_some v hk
  obtain ⟨ty', e1', e2'⟩ := writtenType_some v' (h.kind ▸ hk)
  rw [h.valTypeOf hs hs', e2'] at e2
  cases e2
  have a := valType_text v hk
  have b := valType_text v' (h.kind ▸ hk)
  rw [e1] at a
  rw [e1', ← a] at b
  exact (Option.some.inj b).symm

theorem globalHover_rel {s s' : Sym} (h : SymBoth g g' s s') : globalHover (Red.root g) s = globalHover (Red.root g') s' := by
  obtain ⟨y, y', _, _, p⟩ := SymBoth.pair hs hs' hd hd' h
  unfold globalHover
  rw [(p.sym.inTree hs).2.1, p.rel.left.toNode hs (p.sym.nonempty hs), (p.sym'.inTree hs').2.1, p.rel.right.toNode hs' (p.sym'.nonempty hs')]
  simp only [Ans.ofOption, Ans.bind]
  rw [p.kind, p.idx]
  have := p.rel.childOf hs hs' .GLOBAL_TYPE
  generalize y.childOf .GLOBAL_TYPE = a, y'.childOf .GLOBAL_TYPE = b at this
  cases this with
  | none => rfl
  | @some a b hab =>
    have e1 : (a.token .KEYWORD).isSome = (b.token .KEYWORD).isSome := by
      have := hab.token hs hs' (k := .KEYWORD) rfl
      generalize a.token .KEYWORD = u, b.token .KEYWORD = v at this
      cases this <;> rfl
    have e2 : ((a.childOf .VAL_TYPE).map fun v => v.green.text) = (b.childOf .VAL_TYPE).map fun v => v.green.text := by
      have := hab.childOf hs hs' .VAL_TYPE
      generalize hu : a.childOf .VAL_TYPE = u, b.childOf .VAL_TYPE = v at this
      cases this with
      | none => rfl
      | some h2 => rw [Option.map_some, Option.map_some, valText_rel hs hs' h0 h0' hg hg' h2 (mem_childOf hu).2]
    simp only [e1, e2]

include he hdoc

theorem funcHover_rel {s s' : Sym} (h : SymBoth g g' s s') (hk : s.kind = .func) :
    funcHover (symbolTable (Red.root g)) (Red.root g) s = funcHover (symbolTable (Red.root g')) (Red.root g') s' := by
  obtain ⟨y, y', _, _, p⟩ := SymBoth.pair hs hs' hd hd' h
  have hdt : docText y = docText y' := by
    obtain ⟨_, _, _, m, k, a1, a2, a3, _⟩ := func_sym hs p.sym hk
    obtain ⟨j, p1, p2⟩ := (p.rel.twin hs hs' he p.inked').place
    have hne := p.sym.nonempty hs
    have hne' := p.sym'.nonempty hs'
    have hpar := p.rel.parent
    cases hp : y.parent with
    | none =>
      exfalso
      rw [p.rel.left.parent_none hp, root_kind hs] at a3
      cases a3
    | some q =>
      cases hp' : y'.parent with
      | none => rw [hp, hp'] at hpar; cases hpar
      | some q' =>
        obtain ⟨l, d1, d2⟩ := docText_documented hs p.rel.left hne hp
        obtain ⟨l', d1', d2'⟩ := docText_documented hs' p.rel.right hne' hp'
        have := (hdoc j y y' p1 p2 a3 l d1).unique (InTree.lt_stop hs' p.rel.right hne') d1'
        rw [d2, d2', this]
  have e : renderFuncHeader (symbolTable (Red.root g)) (Red.root g) s = renderFuncHeader (symbolTable (Red.root g')) (Red.root g') s' := by
    unfold renderFuncHeader
    rw [SymRel.getFuncSig hs hs' (s := s) (s' := s') ⟨y, y', p.sym, p.sym', p.rel⟩, p.kind, p.idx]
  unfold funcHover
  rw [e, (p.sym.inTree hs).2.1, p.rel.left.toNode hs (p.sym.nonempty hs), (p.sym'.inTree hs').2.1, p.rel.right.toNode hs' (p.sym'.nonempty hs')]
  simp only [Ans.ofOption, Ans.bind, hdt]

theorem defHover_rel {s s' : Sym} (h : SymBoth g g' s s') :
    defHover (symbolTable (Red.root g)) (Red.root g) s = defHover (symbolTable (Red.root g')) (Red.root g') s' := by
  unfold defHover
  rw [← h.1.kind_eq]
  split
  · rw [localHover_rel hs hs' hd hd' h]
  · rw [localHover_rel hs hs' hd hd' h]
  · rename_i hk; rw [funcHover_rel hs hs' hd hd' he h0 h0' hg hg' hdoc h hk]
  · rw [typeHover_rel hs hs' hd hd' h]
  · rw [globalHover_rel hs hs' hd hd' h0 h0' hg hg' h]
  · rfl

theorem declHover_rel (h : Rel g g' x x') :
    declHover (symbolTable (Red.root g)) (Red.root g) x.key = declHover (symbolTable (Red.root g')) (Red.root g') x'.key := by
  unfold declHover
  have hb := byKey_rel hs hs' hd hd' he h
  generalize (symbolTable (Red.root g)).byKey x.key = a, (symbolTable (Red.root g')).byKey x'.key = b at hb
  cases hb with
  | none => rfl
  | some hss => exact defHover_rel hs hs' hd hd' he h0 h0' hg hg' hdoc hss

theorem refHover_rel (h : Rel g g' x x') :
    refHover (symbolTable (Red.root g)) (Red.root g) x.key = refHover (symbolTable (Red.root g')) (Red.root g') x'.key := by
  unfold refHover
  have hb := byKey_rel hs hs' hd hd' he h
  have hdf := findDefs_rel hs hs' hd hd' he h
  have hkind : ∀ s, (symbolTable (Red.root g)).byKey x.key = some s → ∀ ds, (symbolTable (Red.root g)).findDefs x.key = some ds →
      ∀ d ∈ ds, s.kind.defKind = some d.kind := fun s h1 ds h2 => findDefs_kind h1 h2
  generalize (symbolTable (Red.root g)).byKey x.key = a, (symbolTable (Red.root g')).byKey x'.key = b at hb hkind
  generalize (symbolTable (Red.root g)).findDefs x.key = c, (symbolTable (Red.root g')).findDefs x'.key = d at hdf hkind
  cases hb with
  | none => rfl
  | @some s s' hss =>
    simp only [← hss.1.kind_eq]
    cases hdf with
    | none => rfl
    | @some ds ds' hdd =>
      split
      · rename_i hk
        simp only
        rw [mapL_eq (R := fun a b => SymBoth g g' a b ∧ a ∈ ds ∧ b ∈ ds') (fun a b hab => funcHover_rel hs hs' hd hd' he h0 h0' hg hg' hdoc hab.1 (by
          have := hkind s rfl ds rfl a hab.2.1
          rw [hk] at this
          exact (Option.some.inj this).symm)) hdd.mem_both]
      · simp only
        rw [mapL_eq (fun a b hab => typeHover_rel hs hs' hd hd' hab) hdd]
      · simp only
        rw [mapL_eq (fun a b hab => globalHover_rel hs hs' hd hd' h0 h0' hg hg' hab) hdd]
      · rfl

theorem hoverContents_rel {t t' : Tok} (h : TokRel g g' t t') :
    hoverContents (symbolTable (Red.root g)) (Red.root g) t = hoverContents (symbolTable (Red.root g')) (Red.root g') t' := by
  obtain ⟨x, x', p1, p2, hx⟩ := h.parent hs hs'
  have hl := localDef_rel hs hs' hd hd' he hx
  have e1 := declHover_rel hs hs' hd hd' he h0 h0' hg hg' hdoc hx
  have e2 := refHover_rel hs hs' hd hd' he h0 h0' hg hg' hdoc hx
  unfold hoverContents
  rw [p1, p2, h.kind, h.text]
  simp only [e1, e2]
  generalize (symbolTable (Red.root g)).findParamOrLocalDef x.key = a, (symbolTable (Red.root g')).findParamOrLocalDef x'.key = b at hl
  cases hl with
  | none => rfl
  | some hl => simp only [localHover_rel hs hs' hd hd' hl]

end

/-- The same hovers. -/
theorem same_hovers {g g' : Green} (hs : Solid g) (hs' : Solid g') (hd : DerivedL g.children) (hd' : DerivedL g'.children)
    (he : strip g = strip g') (h0 : ValOk g) (h0' : ValOk g') (hg : (Red.root g).green = g) (hg' : (Red.root g').green = g')
    (hdoc : SameDocs g g') {src src' dr dr' : Text} (ht : g.text ++ dr = src) (ht' : g'.text ++ dr' = src') :
    SameHovers g g' src src' := by
  have hl := tokens_rel hs hs' he
  refine ⟨hl.length, fun i t t' h1 h2 u v u' v' hu hu' hc hc' => ?_⟩
  have hr : TokRel g g' t t' := hl.getElem i t t' h1 h2
  have hcon := hoverContents_rel hs hs' hd hd' he h0 h0' hg hg' hdoc hr
  subst hu hu'
  obtain ⟨o, ho⟩ := hover_ok hs h0 hg ht (cursor_offset hc)
  obtain ⟨o', ho'⟩ := hover_ok hs' h0' hg' ht' (cursor_offset hc')
  obtain ⟨c, hcc⟩ := hoverContents_ok hs h0 hg t
  have hcc' := hcc
  rw [hcon] at hcc'
  cases c with
  | none => exact .inl ⟨hover_silent hs hc hcc, hover_silent hs' hc' hcc'⟩
  | some c =>
    obtain ⟨r, rfl, hr1⟩ := hover_shows hs hc hcc ho
    obtain ⟨r', rfl, hr2⟩ := hover_shows hs' hc' hcc' ho'
    exact .inr ⟨c, r, r', ho, ho', hr1, hr2⟩

/-- The documentation is found by walking back from the function. -/
theorem documented_before {d : Red} {l : List Text} (hpos : d.start < d.stop) (h : Documented d l) : l = (nearDocs d.before).reverse := by
  obtain ⟨p, pre, mid, post, rest, h1, h2, h3, h4, h5, h6⟩ := h
  have ho : p.els.Pairwise fun a b => a.stop ≤ b.start := (childEls_order _ _ _).1
  have hb : d.before = (pre ++ mid ++ post).reverse := by
    unfold Red.before
    rw [h1]
    simp only
    rw [h2] at ho ⊢
    congr 1
    rw [List.takeWhile_append_of_pos, List.takeWhile_cons, if_neg (by simp [isRed]), List.append_nil]
    intro e he
    have hle := (List.pairwise_append.mp ho).2.2 e he (.node d) (by simp)
    cases e with
    | tok t => rfl
    | node m =>
      simp only [isRed, Bool.not_eq_true', beq_eq_false_iff_ne]
      intro hk
      have h7 : m.stop = d.stop := congrArg Key.stop hk
      simp only [El.stop, El.start] at hle
      omega
  have hrev : mid.reverse.filterMap docOfEl = (mid.filterMap docOfEl).reverse := List.filterMap_reverse ..
  rw [hb, List.reverse_append, List.reverse_append, nearDocs_post (fun e he => h3 e (List.mem_reverse.mp he)),
    nearDocs_mid (fun e he => h4 e (List.mem_reverse.mp he)), hrev, List.reverse_reverse, h6]
  intro e he
  rw [List.head?_reverse] at he
  obtain ⟨a, b, c⟩ := h5 e he
  refine ⟨a, b, fun hn => c ?_⟩
  rw [hrev, List.reverse_eq_nil_iff] at hn
  rw [h6, hn]

/-- A check of `SameDocs`. -/
def docsCheck (g g' : Green) : Bool :=
  ((Red.root g).descendants.zip (Red.root g').descendants).all fun p =>
    fieldSpace p.1.kind != some .func || (p.1.kind == p.2.kind && nearDocs p.1.before == nearDocs p.2.before)

theorem docsCheck_docs {g g' : Green} (hs : Solid g) (hs' : Solid g') (h : docsCheck g g' = true) : SameDocs g g' := by
  intro i f f' h1 h2 hk lines hl
  have hm : (f, f') ∈ (Red.root g).descendants.zip (Red.root g').descendants :=
    List.mem_of_getElem? (i := i) (by rw [List.getElem?_zip_eq_some]; exact ⟨h1, h2⟩)
  have := List.all_eq_true.mp h _ hm
  simp only [hk, bne_self_eq_false, Bool.false_or, Bool.and_eq_true, beq_iff_eq] at this
  have hf : InTree g f := List.mem_of_getElem? h1
  have hf' : InTree g' f' := List.mem_of_getElem? h2
  have hk' : fieldSpace f'.kind = some .func := this.1 ▸ hk
  have hne := class_nonempty (symClass_field hk)
  have hne' := class_nonempty (symClass_field hk')
  cases hp' : f'.parent with
  | none =>
    rw [hf'.parent_none hp', root_kind hs'] at hk'
    cases hk'
  | some q' =>
    obtain ⟨l', d1, _⟩ := docText_documented hs' hf' hne' hp'
    rw [documented_before (hf.lt_stop hs hne) hl, this.2, ← documented_before (hf'.lt_stop hs' hne') d1]
    exact d1

end Stripped
end Verif
