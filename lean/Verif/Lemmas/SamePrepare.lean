import Verif.Lemmas.SameNav
import Verif.Lemmas.Offsets
import Verif.Spec.SamePrepare
/-!
The start of the call hierarchy and of a renaming in documents that differ in white space and comments only.
-/
namespace Verif
namespace Stripped
open Spec

variable {g g' : Green} {x x' : Red} {src src' : Text}

theorem all2_left {α β : Type} {R : α → β → Prop} {L : List α} : ∀ {l : List α} {l' : List β}, All2 R l l' → (∀ a ∈ l, a ∈ L) →
    All2 (fun a b => R a b ∧ a ∈ L) l l'
  | _, _, .nil, _ => .nil
  | _, _, .cons h t, k => .cons ⟨h, k _ List.mem_cons_self⟩ (all2_left t fun a ha => k a (List.mem_cons_of_mem _ ha))

/-- Among symbols, the range of a node with a token of its own tells the node. -/
theorem range_key (hs : Solid g) (hx : InTree g x) (ht : x.childToks ≠ []) {s : Sym} (h : s ∈ (symbolTable (Red.root g)).symbols) :
    (s.key.start == x.start && s.key.stop == x.stop) = (s.key == x.key) := by
  rw [Bool.eq_iff_iff, Bool.and_eq_true, beq_iff_eq, beq_iff_eq, beq_iff_eq]
  constructor
  · rintro ⟨h1, h2⟩
    exact ((sym_at hs hx ht h h1 h2).inTree hs).2.1
  · intro e
    rw [e]
    exact ⟨rfl, rfl⟩

section
variable (hs : Solid g) (hs' : Solid g') (hd : DerivedL g.children) (hd' : DerivedL g'.children) (he : strip g = strip g')
include hs hs' hd hd' he

theorem funcs_rel {s s' : Sym} (h : SymBoth g g' s s') (hk : s.kind = .func) : FuncRel g g' s s' := by
  obtain ⟨y, y', _, _, p⟩ := SymBoth.pair hs hs' hd hd' h
  exact func_both hs hs' hd hd' he p.sym hk p.sym' (by rw [← p.kind]; exact hk) p.rel

theorem prepareFrom_rel (hx : Rel g g' x x') (ht : x.childToks ≠ []) (ht' : x'.childToks ≠ []) : ∀ {ss ss' : List Sym},
    All2 (SymBoth g g') ss ss' → ∀ {o o' : Option (List CallItem)}, prepareFrom src (Red.root g) x.start x.stop ss = .done o →
    prepareFrom src' (Red.root g') x'.start x'.stop ss' = .done o' → Opt2 (All2 (SameItem g g' src src')) o o'
  | _, _, .nil, _, _, h, h' => by cases h; cases h'; exact .none
  | s :: ss, s' :: ss', .cons hab t, o, o', h, h' => by
    have ih := fun {o o'} => prepareFrom_rel hx ht ht' t (o := o) (o' := o')
    rw [prepareFrom, range_key hs hx.left ht hab.2.1, key_iff hs hs' hd hd' hab hx] at h
    rw [prepareFrom, range_key hs' hx.right ht' hab.2.2] at h'
    split at h
    · rename_i hk
      rw [if_pos hk, ← hab.1.kind_eq] at h'
      have hdefs : Opt2 (All2 (SymBoth g g')) ((symbolTable (Red.root g)).findDefs s.key) ((symbolTable (Red.root g')).findDefs s'.key) := by
        obtain ⟨y, y', _, _, p⟩ := SymBoth.pair hs hs' hd hd' hab
        rw [(p.sym.inTree hs).2.1, (p.sym'.inTree hs').2.1]
        exact findDefs_rel hs hs' hd hd' he p.rel
      cases e : s.kind with
      | func =>
        rw [e] at h h'
        obtain ⟨i, h1, h⟩ := bind_done h
        obtain ⟨i', h1', h'⟩ := bind_done h'
        cases h; cases h'
        exact .some (.cons (callItem_rel hs hs' hd hd' he (funcs_rel hs hs' hd hd' he hab e) h1 h1') .nil)
      | call =>
        rw [e] at h h'
        simp only at h h'
        have hkind : ∀ ds, (symbolTable (Red.root g)).findDefs s.key = some ds → ∀ d ∈ ds, d.kind = .func := by
          intro ds hds d hm
          obtain ⟨y, r, i, hy, rfl⟩ := call_sym hs hab.2.1 e
          obtain ⟨ds1, h1, h2⟩ := mem_findDefs_func hs hy
          rw [show (refSymOf y r .func i).key = y.key from rfl, h1] at hds
          cases hds
          obtain ⟨_, _, _, _, _, rfl⟩ := (h2 d).mp hm
          rfl
        generalize (symbolTable (Red.root g)).findDefs s.key = a, (symbolTable (Red.root g')).findDefs s'.key = b at hdefs h h' hkind
        cases hdefs with
        | none => exact ih h h'
        | @some ds ds' hdd =>
          simp only at h h'
          obtain ⟨l, h1, h⟩ := bind_done h
          obtain ⟨l', h1', h'⟩ := bind_done h'
          cases h; cases h'
          have hm : All2 (fun a b => SymBoth g g' a b ∧ a ∈ ds) ds ds' := all2_left hdd fun _ h => h
          exact .some (mapL_rel (R := fun a b => SymBoth g g' a b ∧ a ∈ ds) (S := SameItem g g' src src') (f := callItem src (Red.root g))
            (f' := callItem src' (Red.root g')) (fun a b hab o o' k k' =>
              callItem_rel hs hs' hd hd' he (funcs_rel hs hs' hd hd' he hab.1 (hkind ds rfl a hab.2)) k k') hm h1 h1')
      | _ => rw [e] at h h'; exact ih h h'
    · rename_i hk
      rw [if_neg hk] at h'
      exact ih h h'

end

/-- The same starts. -/
theorem same_preparations {g g' : Green} (hs : Solid g) (hs' : Solid g') (hd : DerivedL g.children) (hd' : DerivedL g'.children)
    (he : strip g = strip g') (h0 : ValOk g) (h0' : ValOk g') (hg : (Red.root g).green = g) (hg' : (Red.root g').green = g')
    {src src' dr dr' : Text} (ht : g.text ++ dr = src) (ht' : g'.text ++ dr' = src') : SamePreparations g g' src src' := by
  have hl := tokens_rel hs hs' he
  refine ⟨hl.length, fun i t t' h1 h2 u v u' v' hu hu' hc hc' => ?_⟩
  have hr : TokRel g g' t t' := hl.getElem i t t' h1 h2
  obtain ⟨x, x', p1, p2, hx⟩ := hr.parent hs hs'
  obtain ⟨_, q1, _, q2⟩ := tok_parent hr.left
  obtain ⟨_, q1', _, q2'⟩ := tok_parent hr.right
  rw [p1] at q1; cases q1
  rw [p2] at q1'; cases q1'
  subst hu hu'
  constructor
  · obtain ⟨o, ho⟩ := prepareCalls_ok hs h0 hg ht (cursor_offset hc)
    obtain ⟨o', ho'⟩ := prepareCalls_ok hs' h0' hg' ht' (cursor_offset hc')
    refine ⟨o, o', ho, ho', ?_⟩
    rw [prepareCalls_eq hs hc p1] at ho
    rw [prepareCalls_eq hs' hc' p2] at ho'
    have := prepareFrom_rel hs hs' hd hd' he hx (List.ne_nil_of_mem q2) (List.ne_nil_of_mem q2') (symbols_iso hs hs' he).mem_both ho ho'
    cases this with
    | none => exact .none
    | some h => exact .some h.length.symm h.getElem
  · obtain ⟨o, ho⟩ := prepareRename_ok hs ht (cursor_offset hc)
    obtain ⟨o', ho'⟩ := prepareRename_ok hs' ht' (cursor_offset hc')
    have k := ho
    have k' := ho'
    unfold prepareRename at k k'
    rw [cursor_token hs hc, bindO_of_some, hr.kind] at k
    rw [cursor_token hs' hc', bindO_of_some] at k'
    split at k
    · rename_i hk
      rw [if_pos hk] at k'
      obtain ⟨r, e1, k⟩ := bind_done k
      obtain ⟨r', e2, k'⟩ := bind_done k'
      cases k; cases k'
      exact .inr ⟨r, r', ho, ho', rowanRangeToLsp_iff.mp (ofOption_done e1), rowanRangeToLsp_iff.mp (ofOption_done e2)⟩
    · rename_i hk
      rw [if_neg hk] at k'
      cases k; cases k'
      exact .inl ⟨ho, ho'⟩

end Stripped
end Verif
