import Verif.Lemmas.SameColours
import Verif.Lemmas.SameList
import Verif.Lemmas.CallSites
import Verif.Spec.SameCalls
/-!
The call hierarchies of documents that differ in white space and comments only.
-/
namespace Verif
namespace Stripped
open Spec

variable {g g' : Green} {x x' : Red} {src src' : Text}

/-- Corresponding functions. -/
def FuncRel (g g' : Green) (s s' : Sym) : Prop := SymBoth g g' s s' ∧ s.kind = .func

theorem func_marked {k : Kind} (h : fieldSpace k = some .func) : rank k = 0 ∧ mayBeEmpty k = false := by
  rcases func_kind h with rfl | rfl <;> exact ⟨rfl, rfl⟩

theorem SymIso.kind_eq {s s' : Sym} (h : SymIso g g' s s') : s.kind = s'.kind := by
  obtain ⟨_, _, _, _, _, _, _, _, _, rfl, rfl⟩ := h; rfl

section
variable (hs : Solid g) (hs' : Solid g') (hd : DerivedL g.children) (hd' : DerivedL g'.children) (he : strip g = strip g')
include hs hs'

theorem defs_rel (h : Rel g g' x x') : All2 (FuncRel g g')
    ((((symbolTable (Red.root g)).findDefs x.key).getD []).filter fun s => s.kind == .func)
    ((((symbolTable (Red.root g')).findDefs x'.key).getD []).filter fun s => s.kind == .func) := by
  by_cases hr : ∃ r sp i, IsRef g x r sp i ∧ isModuleSpace sp = true
  · obtain ⟨r, sp, i, hr, hm⟩ := hr
    obtain ⟨r', h1, hr'⟩ := h.isRef hs hs' hr
    rw [findDefs_eq hs hr hm, findDefs_eq hs' hr' hm, Option.getD_some, Option.getD_some]
    by_cases hsp : sp = .func
    · subst hsp
      have hf := ((h1.fields hs hs').zipIdx 0).filter (p := fun p => fieldSpace p.1.kind == some Space.func &&
        i.toIdx.isDefinedBy ⟨some p.2, Spec.nameOf p.1⟩) (q := fun p => fieldSpace p.1.kind == some Space.func &&
        i.toIdx.isDefinedBy ⟨some p.2, Spec.nameOf p.1⟩) fun a b hab => by rw [hab.1.kind, hab.2, hab.1.nameOf hs hs']
      refine All2.filter (fun a b hab => by rw [hab.1.1.kind_eq]) (hf.mem_both.map fun a b hab => ?_)
      obtain ⟨⟨h2, h2'⟩, h3, h4⟩ := hab
      have k3 := List.mem_filter.mp h3
      have k4 := List.mem_filter.mp h4
      simp only [Bool.and_eq_true, beq_iff_eq] at k3 k4
      refine ⟨⟨⟨a.1, b.1, r, r', .func, ⟨some a.2, Spec.nameOf a.1⟩, h2, .inr (func_marked k4.2.1), h1, rfl, ?_⟩, ?_, ?_⟩, rfl⟩
      · rw [h2', h2.nameOf hs hs']; rfl
      · exact (mem_symbols_iff hs).mpr ⟨_, .field (hr.module hs hm) (List.mem_zipIdx_iff_getElem?.mp k3.1) k3.2.1⟩
      · exact (mem_symbols_iff hs').mpr ⟨_, .field (hr'.module hs' hm) (List.mem_zipIdx_iff_getElem?.mp k4.1) k4.2.1⟩
    · have nil : ∀ {m : Red} (l : List (Red × Nat)), ((l.map fun p => fieldSymOf p.1 m sp p.2).filter fun s => s.kind == .func) = [] := by
        intro m l
        rw [List.filter_eq_nil_iff]
        intro s hsm
        obtain ⟨p, _, rfl⟩ := List.mem_map.mp hsm
        revert hm hsp
        cases sp <;> simp [fieldSymOf, defSym, isModuleSpace]
      rw [nil, nil]
      exact .nil
  · have n1 : (symbolTable (Red.root g)).findDefs x.key = none := by
      cases hd : (symbolTable (Red.root g)).findDefs x.key with
      | none => rfl
      | some l => exact absurd (findDefs_ref hs h.left hd) hr
    have n2 : (symbolTable (Red.root g')).findDefs x'.key = none := by
      cases hd : (symbolTable (Red.root g')).findDefs x'.key with
      | none => rfl
      | some l =>
        obtain ⟨r', sp, i, hr', hm⟩ := findDefs_ref hs' h.right hd
        obtain ⟨r, _, h1⟩ := h.symm.isRef hs' hs hr'
        exact absurd ⟨r, sp, i, h1, hm⟩ hr
    rw [n1, n2]
    exact .nil

include hd hd' he

theorem twin_range (h : Rel g g' x x') (hi : Inked x') {r r' : Range} (h1 : IsRange src (x.start, x.stop) r)
    (h2 : IsRange src' (x'.start, x'.stop) r') : SameRange g g' src src' r r' := by
  obtain ⟨j, p1, p2⟩ := (h.twin hs hs' he hi).place
  exact ⟨_, _, .node p1 p2, h1, h2⟩

theorem callItem_rel {s s' : Sym} (h : FuncRel g g' s s') {i i' : CallItem} (h1 : callItem src (Red.root g) s = .done i)
    (h2 : callItem src' (Red.root g') s' = .done i') : SameItem g g' src src' i i' := by
  obtain ⟨hb, hk⟩ := h
  obtain ⟨x, x', r, r', p⟩ := hb.pair hs hs' hd hd'
  obtain ⟨j, p1, p2⟩ := (p.rel.twin hs hs' he p.inked').place
  obtain ⟨a1, a2, a3⟩ := callItem_done hs p.sym h1
  obtain ⟨b1, b2, b3⟩ := callItem_done hs' p.sym' h2
  refine ⟨?_, ?_, ⟨_, _, .node p1 p2, a2, b2⟩, ⟨_, _, .name p1 p2, a3, b3⟩⟩
  · rw [a1, b1]; unfold symbolName; rw [p.idx]
  · unfold callItem at h1 h2
    obtain ⟨t, ht, h1⟩ := bind_done h1
    obtain ⟨_, _, h1⟩ := bind_done h1
    obtain ⟨_, _, h1⟩ := bind_done h1
    obtain ⟨t', ht', h2⟩ := bind_done h2
    obtain ⟨_, _, h2⟩ := bind_done h2
    obtain ⟨_, _, h2⟩ := bind_done h2
    cases h1; cases h2
    have e : renderFuncHeader (symbolTable (Red.root g)) (Red.root g) s = renderFuncHeader (symbolTable (Red.root g')) (Red.root g') s' := by
      unfold renderFuncHeader
      rw [SymRel.getFuncSig hs hs' (s := s) (s' := s') ⟨x, x', p.sym, p.sym', p.rel⟩, p.kind, p.idx]
    rw [ht, ht'] at e
    cases e; rfl

theorem outgoingEntries_rel (h : Rel g g' x x') (hk : x.kind = .PLAIN_INSTR) {es es' : List CallEntry}
    (h1 : outgoingEntries src (Red.root g) x = .done es) (h2 : outgoingEntries src' (Red.root g') x' = .done es') :
    All2 (SameCall g g' src src') es es' := by
  unfold outgoingEntries at h1 h2
  obtain ⟨r, hr, h1⟩ := bind_done h1
  obtain ⟨r', hr', h2⟩ := bind_done h2
  rw [filterMap_flatten, filter_flatMap] at h1 h2
  have hR : SameRange g g' src src' r r' := twin_range hs hs' hd hd' he h
    (typed_inked hs' hd' h.right (.inl (h.kind ▸ hk))) (rowanRangeToLsp_iff.mp (ofOption_done hr)) (rowanRangeToLsp_iff.mp (ofOption_done hr'))
  refine mapL_rel (R := FuncRel g g') (fun s s' hss o o' k k' => ?_)
    ((h.childrenOf hs hs' .OPERAND).flatMap fun a b hab => defs_rel hs hs' hab) h1 h2
  obtain ⟨i, hi, k⟩ := bind_done k
  obtain ⟨i', hi', k'⟩ := bind_done k'
  cases k; cases k'
  exact ⟨callItem_rel hs hs' hd hd' he hss hi hi', r, r', rfl, rfl, hR⟩

/-- The outgoing calls of corresponding functions. -/
theorem outgoing_rel {m m' f f' : Red} {k k' : Nat} (hf : IsFunc g m k f) (hf' : IsFunc g' m' k' f') (h : Rel g g' f f')
    {r r' : Range} (hr : IsRange src (f.start, f.stop) r) (hr' : IsRange src' (f'.start, f'.stop) r') {es es' : List CallEntry}
    (h1 : outgoingCalls src (Red.root g) r = .done (some es)) (h2 : outgoingCalls src' (Red.root g') r' = .done (some es')) :
    SameCalls g g' src src' es es' := by
  have aux : ∀ {g : Green} {src : Text} {m f : Red} {k : Nat} {r : Range} {es : List CallEntry}, Solid g → IsFunc g m k f →
      IsRange src (f.start, f.stop) r → outgoingCalls src (Red.root g) r = .done (some es) →
      ∃ ess, Ans.mapL (outgoingEntries src (Red.root g)) (f.descendants.filter fun n => n.kind == .PLAIN_INSTR && isCall n) = .done ess ∧
        es = ess.flatten := by
    intro g src m f k r es hs hf hrf h
    have hft := ((IsFunc.sym hf).inTree hs).1
    unfold outgoingCalls at h
    rw [lspRange_eq hrf (Nat.le_of_lt (hft.lt_stop hs ((IsFunc.sym hf).nonempty hs)))] at h
    rw [bindO_of_some] at h
    rw [funcAt_eq hs (IsFunc.sym hf) rfl] at h
    simp only at h
    obtain ⟨y, hy, h'⟩ := bind_done h
    clear h
    have : y = f := by
      have := ofOption_done hy
      have e := hft.toNode hs ((IsFunc.sym hf).nonempty hs)
      rw [show (fieldSymOf f m .func k).key = f.key from rfl, e] at this
      cases this; rfl
    subst this
    obtain ⟨ess, hess, h'⟩ := bind_done h'
    cases h'
    exact ⟨ess, hess, rfl⟩
  obtain ⟨ess, e1, rfl⟩ := aux hs hf hr h1
  obtain ⟨ess', e2, rfl⟩ := aux hs' hf' hr' h2
  have hl := ((h.descendants hs hs').filter (p := fun n => n.kind == .PLAIN_INSTR && isCall n) (q := fun n => n.kind == .PLAIN_INSTR && isCall n)
    fun a b hab => by rw [hab.kind, hab.isCall hs hs']).mem_both
  have := All2.flatten (mapL_rel (S := All2 (SameCall g g' src src')) (fun a b hab o o' k k' => outgoingEntries_rel hs hs' hd hd' he hab.1
    (by have := (List.mem_filter.mp hab.2.1).2; simp at this; exact this.1) k k') hl e1 e2)
  exact ⟨this.length.symm, this.getElem⟩

theorem func_both {s s' : Sym} {f f' : Red} (h : IsSym g s f) (hk : s.kind = .func) (h' : IsSym g' s' f') (hk' : s'.kind = .func)
    (hr : Rel g g' f f') : FuncRel g g' s s' := by
  obtain ⟨t', _, ht⟩ := (symbols_iso hs hs' he).mem_both.mem s ((mem_symbols_iff hs).mpr ⟨f, h⟩)
  obtain ⟨x, x', r, r', p⟩ := SymBoth.pair hs hs' hd hd' ht
  have : x = f := InTree.key_inj hs p.rel.left hr.left (by rw [← (p.sym.inTree hs).2.1, (h.inTree hs).2.1]) (h.nonempty hs)
  subst this
  have : x' = f' := mv_inj hs' p.rel.right hr.right p.inked' (by rw [← p.rel.same, hr.same])
  subst this
  have e1 := funcAt_eq hs' p.sym' (by rw [← p.kind]; exact hk)
  rw [funcAt_eq hs' h' hk'] at e1
  cases e1
  exact ⟨ht, hk⟩

theorem incomingEntry_rel {c c' : Sym} (h : SymBoth g g' c c') (hk : c.kind = .call) {o o' : Option CallEntry}
    (h1 : incomingEntry src (Red.root g) c = .done o) (h2 : incomingEntry src' (Red.root g') c' = .done o') :
    Opt2 (SameCall g g' src src') o o' := by
  obtain ⟨x, x', r, r', p⟩ := h.pair hs hs' hd hd'
  have n1 : c.key.toNode (Red.root g) = some x := by
    rw [(p.sym.inTree hs).2.1, p.rel.left.toNode hs (p.sym.nonempty hs)]
  have n2 : c'.key.toNode (Red.root g') = some x' := by
    rw [(p.sym'.inTree hs').2.1, p.rel.right.toNode hs' (p.sym'.nonempty hs')]
  have hq := p.rel.parent
  obtain ⟨y, m, i, hy, e⟩ := call_sym hs h.2.1 hk
  have : y = x := InTree.key_inj hs hy.tree p.rel.left (by rw [← (p.sym.inTree hs).2.1, e]; rfl) (p.sym.nonempty hs)
  subst this
  obtain ⟨q, hqp⟩ : ∃ q, y.parent = some q := by
    rcases refersTo_elim hy.refers with ⟨q, _, h, _⟩ | ⟨q, h, _⟩ <;> exact ⟨q, h⟩
  rw [hqp] at hq
  obtain ⟨q', hqp', hqq⟩ : ∃ q', x'.parent = some q' ∧ Rel g g' q q' := by
    generalize x'.parent = z at hq
    cases hq with
    | some hq => exact ⟨_, rfl, hq⟩
  have henc := p.rel.enclosing (· == .MODULE_FIELD_FUNC)
  unfold incomingEntry callerOf callRanges at h1 h2
  rw [n1] at h1
  rw [n2] at h2
  have ob : ∀ {α β : Type} (n : α) (f : α → Ans β), (Ans.ofOption (some n)).bind f = f n := fun _ _ => rfl
  rw [ob] at h1 h2
  generalize e1 : y.enclosing (· == .MODULE_FIELD_FUNC) = a, e2 : x'.enclosing (· == .MODULE_FIELD_FUNC) = b at henc h1 h2
  cases henc with
  | none => cases h1; cases h2; exact .none
  | some hf =>
    rename_i f f'
    have hfk : f.kind = .MODULE_FIELD_FUNC := by
      unfold Red.enclosing at e1
      simpa using List.find?_some e1
    obtain ⟨mf, kf, _, _, s1⟩ := func_has_sym hs hf.left (sp := .func) (by rw [hfk]; rfl)
    obtain ⟨mf', kf', _, _, s2⟩ := func_has_sym hs' hf.right (sp := .func) (by rw [← hf.kind, hfk]; rfl)
    simp only [Option.bind_some] at h1 h2
    rw [byKey_func hs s1 rfl, Option.map_some, bindO_of_some, hqp] at h1
    rw [byKey_func hs' s2 rfl, Option.map_some, bindO_of_some, hqp'] at h2
    obtain ⟨rs, hrs, h1⟩ := bind_done h1
    obtain ⟨it, hit, h1⟩ := bind_done h1
    obtain ⟨rs', hrs', h2⟩ := bind_done h2
    obtain ⟨it', hit', h2⟩ := bind_done h2
    cases h1; cases h2
    obtain ⟨r1, hr1, hrs⟩ := bind_done hrs
    obtain ⟨r2, hr2, hrs'⟩ := bind_done hrs'
    cases hrs; cases hrs'
    exact .some ⟨callItem_rel hs hs' hd hd' he (func_both hs hs' hd hd' he s1 rfl s2 rfl hf) hit hit', r1, r2, rfl, rfl,
      twin_range hs hs' hd hd' he hqq (inked_parent p.rel.right p.inked' hqp')
        (rowanRangeToLsp_iff.mp (ofOption_done hr1)) (rowanRangeToLsp_iff.mp (ofOption_done hr2))⟩

/-- The incoming calls of corresponding functions. -/
theorem incoming_rel {m m' f f' : Red} {k k' : Nat} (hf : IsFunc g m k f) (hf' : IsFunc g' m' k' f') (h : Rel g g' f f')
    {r r' : Range} (hr : IsRange src (f.start, f.stop) r) (hr' : IsRange src' (f'.start, f'.stop) r') {es es' : List CallEntry}
    (h1 : incomingCalls src (Red.root g) r = .done (some es)) (h2 : incomingCalls src' (Red.root g') r' = .done (some es')) :
    SameCalls g g' src src' es es' := by
  have aux : ∀ {g : Green} {src : Text} {m f : Red} {k : Nat} {r : Range} {es : List CallEntry}, Solid g → IsFunc g m k f →
      IsRange src (f.start, f.stop) r → incomingCalls src (Red.root g) r = .done (some es) →
      Ans.filterMapL (incomingEntry src (Red.root g)) ((symbolTable (Red.root g)).symbols.filter fun s =>
        s.kind == .call && s.idx.isDefinedBy (fieldSymOf f m .func k).idx && (fieldSymOf f m .func k).region == s.region) = .done es := by
    intro g src m f k r es hs hf hrf h
    have hft := ((IsFunc.sym hf).inTree hs).1
    unfold incomingCalls at h
    rw [lspRange_eq hrf (Nat.le_of_lt (hft.lt_stop hs ((IsFunc.sym hf).nonempty hs)))] at h
    rw [bindO_of_some] at h
    rw [funcAt_eq hs (IsFunc.sym hf) rfl] at h
    simp only at h
    obtain ⟨ess, hess, h'⟩ := bind_done h
    cases h'
    exact hess
  have hc := (func_both hs hs' hd hd' he (IsFunc.sym hf) rfl (IsFunc.sym hf') rfl h).1
  obtain ⟨_, _, _, _, pc⟩ := SymBoth.pair hs hs' hd hd' hc
  have hl := ((symbols_iso hs hs' he).mem_both.filter (p := fun s =>
        s.kind == .call && s.idx.isDefinedBy (fieldSymOf f m .func k).idx && (fieldSymOf f m .func k).region == s.region) (q := fun s =>
        s.kind == .call && s.idx.isDefinedBy (fieldSymOf f' m' .func k').idx && (fieldSymOf f' m' .func k').region == s.region)
    fun a b hab => by
      obtain ⟨_, _, _, _, pa⟩ := SymBoth.pair hs hs' hd hd' hab
      rw [pa.kind, pa.idx, pc.idx, region_iff hs hs' hd hd' hab hc]).mem_both
  have := filterMapL_rel (S := SameCall g g' src src') (fun a b hab o o' k k' => incomingEntry_rel hs hs' hd hd' he hab.1
    (by have := (List.mem_filter.mp hab.2.1).2; simp at this; exact this.1.1) k k') hl (aux hs hf hr h1) (aux hs' hf' hr' h2)
  exact ⟨this.length.symm, this.getElem⟩

end

theorem calls_answer {g : Green} (hs : Solid g) (h0 : ValOk g) (hg : (Red.root g).green = g) {src dr : Text} (ht : g.text ++ dr = src)
    {m f : Red} {k : Nat} (hf : IsFunc g m k f) : ∃ r es es', IsRange src (f.start, f.stop) r ∧
      outgoingCalls src (Red.root g) r = .done (some es) ∧ incomingCalls src (Red.root g) r = .done (some es') := by
  have hft := ((IsFunc.sym hf).inTree hs).1
  obtain ⟨r, hr⟩ := node_range_ok hs ht hft
  have hr := rowanRangeToLsp_iff.mp hr
  have hok : (lspRangeToRowan src r).Ok :=
    ⟨_, lspRange_eq hr (Nat.le_of_lt (hft.lt_stop hs ((IsFunc.sym hf).nonempty hs)))⟩
  obtain ⟨o, ho⟩ := outgoingCalls_ok hs h0 hg ht hok
  obtain ⟨o', ho'⟩ := incomingCalls_ok hs h0 hg ht hok
  obtain ⟨es, rfl, _⟩ := outgoing_mem hs hf hr ho
  obtain ⟨es', rfl, _⟩ := incoming_mem hs hf hr ho'
  exact ⟨r, es, es', hr, ho, ho'⟩

/-- The same calls. -/
theorem same_hierarchy {g g' : Green} (hs : Solid g) (hs' : Solid g') (hd : DerivedL g.children) (hd' : DerivedL g'.children)
    (he : strip g = strip g') (h0 : ValOk g) (h0' : ValOk g') (hg : (Red.root g).green = g) (hg' : (Red.root g').green = g')
    {src src' dr dr' : Text} (ht : g.text ++ dr = src) (ht' : g'.text ++ dr' = src') : SameHierarchy g g' src src' := by
  have hl := (root_rel hs hs' he).descendants hs hs'
  have hfun : ∀ {g g' : Green}, Solid g' → ∀ {f f' : Red}, Rel g g' f f' → (∃ m k, IsFunc g m k f) → ∃ m k, IsFunc g' m k f' := by
    intro g g' hs' f f' hr ⟨m, k, hf⟩
    obtain ⟨m', k', e1, e2, _⟩ := func_has_sym hs' hr.right (sp := .func) (by rw [← hr.kind]; exact hf.func)
    exact ⟨m', k', e1, e2, by rw [← hr.kind]; exact hf.func⟩
  refine ⟨All2.length hl, fun i f f' h1 h2 => ?_⟩
  have hr : Rel g g' f f' := hl.getElem i f f' h1 h2
  refine ⟨⟨hfun hs' hr, fun ⟨m', k', hf'⟩ => ?_⟩, fun m k hf => ?_⟩
  · obtain ⟨m, k, e1, e2, _⟩ := func_has_sym hs hr.left (sp := .func) (by rw [hr.kind]; exact hf'.func)
    exact ⟨m, k, e1, e2, by rw [hr.kind]; exact hf'.func⟩
  obtain ⟨m', k', hf'⟩ := hfun hs' hr ⟨m, k, hf⟩
  obtain ⟨r, os, is, a1, a2, a3⟩ := calls_answer hs h0 hg ht hf
  obtain ⟨r', os', is', b1, b2, b3⟩ := calls_answer hs' h0' hg' ht' hf'
  exact ⟨r, r', a1, b1, ⟨os, os', a2, b2, outgoing_rel hs hs' hd hd' he hf hf' hr a1 b1 a2 b2⟩,
    is, is', a3, b3, incoming_rel hs hs' hd hd' he hf hf' hr a1 b1 a3 b3⟩

end Stripped
end Verif
