import Verif.Lemmas.Check
import Verif.Lemmas.Cursor
/-!
When a reference is reported as undefined, in terms of the declarations that the code finds for it.
-/
namespace Verif
open Spec

/-- Nodes with tokens of their own are determined by their ranges. -/
theorem range_inj (hs : Solid g) {m n : Red} (hm : InTree g m) (hn : InTree g n) (ht : m.childToks ≠ [])
    (ht' : n.childToks ≠ []) (he : (m.start, m.stop) = (n.start, n.stop)) : m = n := by
  simp only [Prod.mk.injEq] at he
  have key : ∀ {a c : Red}, InTree g a → InTree g c → a.StrictlyBelow c → c.childToks ≠ [] → a.start = c.start → a.stop = c.stop → False := by
    intro a c ha hc hb hne h1 h2
    obtain ⟨t, ht⟩ := List.exists_mem_of_ne_nil _ hne
    obtain ⟨k, hk, h3, h4⟩ := StrictlyBelow.child ha hb
    have h5 := childTok_child ht hk
    have h6 := childTok_solid hs hc ht
    have h7 := childTok_within ht
    unfold Tok.stop at *
    omega
  have lt : ∀ {a : Red}, InTree g a → a.childToks ≠ [] → a.start < a.stop := by
    intro a ha hne
    obtain ⟨t, ht⟩ := List.exists_mem_of_ne_nil _ hne
    have h6 := childTok_solid hs ha ht
    have h7 := childTok_within ht
    unfold Tok.stop at *
    omega
  rcases InTree.nested hm hn with h | h | h | h | h
  · exact h
  · exact (key hm hn h ht' he.1 he.2).elim
  · exact (key hn hm h ht he.1.symm he.2.symm).elim
  · have := lt hm ht; omega
  · have := lt hm ht; omega

/-- Symbols are determined by the ranges of their nodes. -/
theorem IsSym.range_inj (hs : Solid g) {s s' : Sym} {x x' : Red} (h : IsSym g s x) (h' : IsSym g s' x')
    (he : (s.key.start, s.key.stop) = (s'.key.start, s'.key.stop)) : x = x' ∧ s = s' := by
  rw [(h.inTree hs).2.1, (h'.inTree hs).2.1] at he
  have := Verif.range_inj hs (h.inTree hs).1 (h'.inTree hs).1 (h.childToks hs) (h'.childToks hs) he
  subst this
  exact ⟨rfl, h.det hs h'⟩

theorem any_eq_find {p : α → Bool} (l : List α) : l.any p = (l.find? p).isSome := by
  induction l with
  | nil => rfl
  | cons a l ih => rw [List.any_cons, List.find?_cons]; cases p a <;> simp [ih]

/-- A reference is undefined for the checker if the code finds no declaration for it. -/
theorem isUndefined_iff (hs : Solid g) {x r : Red} {sp : Space} {i : Index} (h : IsRef g x r sp i) :
    (symbolTable (Red.root g)).isUndefined (refSymOf x r sp i) = true ↔ ¬ ∃ d, CodeDef sp r i d := by
  have hmod : isModuleSpace sp = true → ((match (symbolTable (Red.root g)).findDefs x.key with
      | some (_ :: _) => false
      | _ => true) = true ↔ ¬ ∃ k d, (fields r)[k]? = some d ∧ fieldSpace d.kind = some sp ∧ Matches i k (nameOf d)) := by
    intro hm
    obtain ⟨ds, h1, h2⟩ := findDefs_module hs h hm
    rw [h1]
    cases ds with
    | nil =>
      simp only [true_iff]
      rintro ⟨k, d, h3, h4, h5⟩
      have := (h2 (fieldSymOf d r sp k)).mpr ⟨k, d, h3, h4, h5, rfl⟩
      cases this
    | cons s ss =>
      obtain ⟨k, d, h3, h4, h5, _⟩ := (h2 s).mp (by simp)
      simp only [Bool.false_eq_true, false_iff, Classical.not_not]
      exact ⟨k, d, h3, h4, h5⟩
  have swap : ∀ {P : Nat → Red → Prop}, (¬ ∃ k d, P k d) ↔ ¬ ∃ d k, P k d := by
    intro P
    exact not_congr ⟨fun ⟨k, d, h⟩ => ⟨d, k, h⟩, fun ⟨d, k, h⟩ => ⟨k, d, h⟩⟩
  unfold SymbolTable.isUndefined
  cases sp with
  | func => exact (hmod rfl).trans swap
  | type => exact (hmod rfl).trans swap
  | global => exact (hmod rfl).trans swap
  | memory => exact (hmod rfl).trans swap
  | table => exact (hmod rfl).trans swap
  | «local» =>
    simp only [refSymOf, refSym, CodeDef, findLocal_eq hs h]
    cases ((localSlots r).zipIdx.find? fun q => i.toIdx.isDefinedBy ⟨some q.2, nameOf q.1⟩) <;> simp
  | label =>
    simp only [refSymOf, refSym, CodeDef, any_eq_find]
    have e : (fun b : BlockEntry => b.ref == x.key && i.toIdx.isDefinedBy b.idx) =
        fun b : BlockEntry => x.key == b.ref && i.toIdx.isDefinedBy b.idx := by
      funext b
      rw [Bool.beq_comm]
    rw [e, blocks_find hs h.isBranch (fun o => i.toIdx.isDefinedBy o)]
    unfold entriesOf
    rw [List.find?_map]
    have e : ((fun b : BlockEntry => i.toIdx.isDefinedBy b.idx) ∘ fun q : Red × Nat => (⟨x.key, q.1.key, ⟨some q.2, nameOf q.1⟩⟩ : BlockEntry))
        = fun q => i.toIdx.isDefinedBy ⟨some q.2, nameOf q.1⟩ := rfl
    rw [e]
    cases (run r).zipIdx.find? fun q => i.toIdx.isDefinedBy ⟨some q.2, nameOf q.1⟩ <;> simp

/-- Only references are reported. -/
theorem undefined_ref (hs : Solid g) {s : Sym} (h : s ∈ (symbolTable (Red.root g)).symbols)
    (hu : (symbolTable (Red.root g)).isUndefined s = true) : ∃ x r sp i, IsRef g x r sp i ∧ s = refSymOf x r sp i := by
  obtain ⟨x, hx⟩ := (mem_symbols_iff hs).mp h
  cases hx with
  | module => cases hu
  | @field m _ k sp _ _ hsp => cases sp <;> first | (cases hu; done) | (exact absurd (fieldSpace_module hsp) (by decide))
  | @slot f _ j => unfold SymbolTable.isUndefined at hu; dsimp only at hu; split at hu <;> simp_all <;> (split at * <;> simp_all)
  | @ref _ r sp i h1 h2 h3 h4 => exact ⟨x, r, sp, i, ⟨h1, h2, h3, h4⟩, rfl⟩
  | block => cases hu

/-- The "cannot find" diagnostics are those of the references the code finds no declaration for. -/
theorem mem_undef (hs : Solid g) {src : Text} {errs : List Err} {ds : List Diag}
    (hd : diagnostics src (Red.root g) errs = .done ds) {d : Diag} {n : Text} (hm : d.msg = .cannotFind n) :
    d ∈ ds ↔ d.related = [] ∧ ∃ x r sp i, IsRef g x r sp i ∧ (¬ ∃ y, CodeDef sp r i y) ∧ n = i.toIdx.shown ∧
      IsRange src (x.start, x.stop) d.range := by
  rw [mem_diagnostics hd]
  constructor
  · rintro ⟨r, h1, h2⟩
    have hmr := (toDiag_msg h1).1
    have hc : r.msg.checker = .undef := by rw [← hmr, hm]; rfl
    have hr : r ∈ checkUndef (symbolTable (Red.root g)) := by
      rcases h2 with ⟨e, _, rfl⟩ | ⟨n, _, l, h3, h4⟩ | h3 | ⟨l, h3, h4⟩
      · cases hc
      · rcases checkNode_msg h3 h4 with h5 | h5 | h5 <;> rw [h5.1] at hc <;> cases hc
      · exact h3
      · rw [checkDup_msg h3 h4] at hc; cases hc
    obtain ⟨s, hs1, rfl⟩ := List.mem_map.mp hr
    obtain ⟨hs2, hs3⟩ := List.mem_filter.mp hs1
    obtain ⟨x, r, sp, i, hir, rfl⟩ := undefined_ref hs hs2 hs3
    refine ⟨List.eq_nil_of_length_eq_zero (toDiag_related h1).1.symm, x, r, sp, i, hir, (isUndefined_iff hs hir).mp hs3, ?_, (toDiag_msg h1).2⟩
    rw [hm] at hmr
    exact DiagMsg.cannotFind.inj hmr
  · rintro ⟨h1, x, r, sp, i, hir, hno, rfl, hrng⟩
    refine ⟨⟨x.start, x.stop, .cannotFind i.toIdx.shown, []⟩, ?_, .inr (.inr (.inl ?_))⟩
    · unfold toDiag
      rw [isRange_eq hrng]
      cases d
      cases h1; cases hm
      rfl
    · exact List.mem_map.mpr ⟨refSymOf x r sp i, List.mem_filter.mpr ⟨hir.mem hs, (isUndefined_iff hs hir).mpr hno⟩, rfl⟩

/-- A reference is reported if the code finds no declaration for it. -/
theorem undef_at (hs : Solid g) {src : Text} {errs : List Err} {ds : List Diag}
    (hd : diagnostics src (Red.root g) errs = .done ds) {x r : Red} {sp : Space} {i : Index} (h : IsRef g x r sp i)
    {rng : Range} (hr : IsRange src (x.start, x.stop) rng) :
    (∃ d ∈ ds, d.range = rng ∧ ∃ n, d.msg = .cannotFind n) ↔ ¬ ∃ y, CodeDef sp r i y := by
  constructor
  · rintro ⟨d, h1, rfl, n, h2⟩
    obtain ⟨_, x', r', sp', i', h3, h4, _, h5⟩ := (mem_undef hs hd h2).mp h1
    have := range_inj hs h.tree h3.tree (h.isSym.childToks hs) (h3.isSym.childToks hs) (isRange_inj hr h5)
    subst this
    have e1 := refersTo_fun h.refers h3.refers
    subst e1
    have e2 := h.scope.symm.trans h3.scope
    cases e2
    have e3 := h.idx.symm.trans h3.idx
    cases e3
    exact h4
  · intro hno
    exact ⟨⟨rng, .cannotFind i.toIdx.shown, []⟩, (mem_undef hs hd rfl).mpr ⟨rfl, x, r, sp, i, h, hno, rfl, hr⟩, rfl, _, rfl⟩

end Verif
