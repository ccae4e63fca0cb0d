import Verif.Lemmas.Names
/-!
Helper lemmas: find-references asked for at a use.
-/
set_option linter.unusedSimpArgs false
namespace Verif
open Spec

variable {g : Green}

/-- `d` is number `k` of the scope `r`. -/
def DeclAt (sp : Space) (r d : Red) (k : Nat) : Prop :=
  match sp with
  | .local => (localSlots r)[k]? = some d
  | .label => False
  | sp => (fields r)[k]? = some d ∧ fieldSpace d.kind = some sp

/-- The symbol of a declaration. -/
def declSym (sp : Space) (r d : Red) (k : Nat) : Sym := if sp = .local then slotSymOf d r k else fieldSymOf d r sp k

theorem declAt_module {sp : Space} (hm : isModuleSpace sp = true) (r d : Red) (k : Nat) :
    DeclAt sp r d k ↔ (fields r)[k]? = some d ∧ fieldSpace d.kind = some sp := by
  revert hm; cases sp <;> simp [isModuleSpace, DeclAt]

theorem space_cases (sp : Space) : isModuleSpace sp = true ∨ sp = .local ∨ sp = .label := by
  cases sp <;> simp [isModuleSpace]

theorem IsRef.declSym (hs : Solid g) {x r d : Red} {sp : Space} {i : Index} {k : Nat} (h : IsRef g x r sp i)
    (hd : DeclAt sp r d k) : IsSym g (declSym sp r d k) d := by
  rcases space_cases sp with hm | rfl | rfl
  · rw [declAt_module hm] at hd
    have : sp ≠ .local := by rintro rfl; cases hm
    rw [Verif.declSym, if_neg this]
    exact .field (h.module hs hm) hd.1 hd.2
  · rw [Verif.declSym, if_pos rfl]
    exact .slot h.scope_mem.2.1 h.func hd
  · exact hd.elim

theorem IsRef.declares (hs : Solid g) {x r d : Red} {sp : Space} {i : Index} {k : Nat} (h : IsRef g x r sp i)
    (hd : DeclAt sp r d k) : Declares g d sp := by
  rcases space_cases sp with hm | rfl | rfl
  · rw [declAt_module hm] at hd
    exact .field (h.module hs hm) (List.mem_filter.mp (List.mem_of_getElem? hd.1)).1 hd.2
  · exact .slot h.scope_mem.2.1 h.func (List.mem_of_getElem? hd)
  · exact hd.elim

/-- What the code takes for the declaration of an index matches it. -/
theorem codeDef_declAt {sp : Space} (hsp : sp ≠ .label) {r : Red} {i : Index} {d : Red} (h : CodeDef sp r i d) :
    ∃ k, DeclAt sp r d k ∧ Matches i k (nameOf d) := by
  rcases space_cases sp with hm | rfl | rfl
  · have e : CodeDef sp r i d ↔ ∃ k : Nat, (fields r)[k]? = some d ∧ fieldSpace d.kind = some sp ∧ Matches i k (nameOf d) := by
      revert hm; cases sp <;> simp [isModuleSpace, CodeDef]
    obtain ⟨k, h1, h2, h3⟩ := e.mp h
    exact ⟨k, (declAt_module hm _ _ _).mpr ⟨h1, h2⟩, h3⟩
  · simp only [CodeDef] at h
    obtain ⟨q, h1, rfl⟩ := Option.map_eq_some_iff.mp h
    have hq := List.mem_zipIdx_iff_getElem?.mp (List.mem_of_find?_eq_some h1)
    exact ⟨q.2, hq, (isDefinedBy_iff _ _ _).mp (List.find?_some (p := fun q : Red × Nat => i.toIdx.isDefinedBy ⟨some q.2, nameOf q.1⟩) h1)⟩
  · exact absurd rfl hsp

theorem declAt_codeDef {sp : Space} {r : Red} (hu : sp = .local → DistinctSlots r) {i : Index} {d : Red} {k : Nat}
    (h : DeclAt sp r d k) (hm : Matches i k (nameOf d)) : CodeDef sp r i d := by
  rcases space_cases sp with hm' | rfl | rfl
  · have e : CodeDef sp r i d ↔ ∃ k : Nat, (fields r)[k]? = some d ∧ fieldSpace d.kind = some sp ∧ Matches i k (nameOf d) := by
      revert hm'; cases sp <;> simp [isModuleSpace, CodeDef]
    rw [declAt_module hm'] at h
    exact e.mpr ⟨k, h.1, h.2, hm⟩
  · have h : (localSlots r)[k]? = some d := h
    cases i with
    | num j => simp only [CodeDef, find_num]; rw [show j = k from hm]; exact h
    | name n =>
      simp only [CodeDef, find_name]
      have hn : nameOf d = some n := hm
      have hd := List.mem_of_getElem? h
      have hsome : ((localSlots r).find? fun d => nameOf d == some n).isSome := by
        rw [List.find?_isSome]; exact ⟨d, hd, by rw [hn]; simp⟩
      obtain ⟨e, he⟩ := Option.isSome_iff_exists.mp hsome
      have h7 : (nameOf e == some n) = true := List.find?_some (p := fun b => nameOf b == some n) he
      rw [he, hu rfl d hd e (List.mem_of_find?_eq_some he) (by rw [hn]; simpa using h7) (by rw [hn]; rfl)]
  · exact h.elim

theorem refSym_inj {sp sp' : Space} (h : refSym sp = refSym sp') : sp = sp' := by
  revert h; cases sp <;> cases sp' <;> simp [refSym]

theorem use_sym {s : Sym} {x : Red} {sp : Space} (h : IsSym g s x) (hk : s.kind = refSym sp) :
    ∃ r i, IsRef g x r sp i ∧ s = refSymOf x r sp i := by
  cases h with
  | module _ => revert hk; cases sp <;> simp [refSym]
  | @field _ _ _ sp' _ _ _ => revert hk; cases sp <;> cases sp' <;> simp [refSym, defSym]
  | slot _ _ _ => revert hk; dsimp only; split <;> cases sp <;> simp [refSym]
  | @ref _ r sp' i h1 h2 h3 h4 =>
    cases refSym_inj hk
    exact ⟨r, i, ⟨h1, h2, h3, h4⟩, rfl⟩
  | block _ _ _ => revert hk; cases sp <;> simp [refSym]

/-- Scopes with the same key are the same. -/
theorem IsRef.scope_inj (hs : Solid g) {x y r r' : Red} {sp : Space} {i j : Index} (h : IsRef g x r sp i) (h' : IsRef g y r' sp j)
    (hsp : sp ≠ .label) (hk : r.key = r'.key) : r = r' := by
  rcases space_cases sp with hm | rfl | rfl
  · exact module_key_inj hs (h.module hs hm) (h'.module hs hm) hk
  · exact InTree.key_inj hs h.scope_mem.2.1 h'.scope_mem.2.1 hk (by rw [h'.func]; rfl)
  · exact absurd rfl hsp

/-- What find-references takes for references when asked at a use. -/
theorem references_use (hs : Solid g) {x r : Red} {sp : Space} {i : Index} (h : IsRef g x r sp i) (hsp : sp ≠ .label)
    (incl : Bool) (s : Sym) : s ∈ ((symbolTable (Red.root g)).references incl x.key).getD [] ↔
      (incl = true ∧ ∃ d k, DeclAt sp r d k ∧ Matches i k (nameOf d) ∧ s = declSym sp r d k) ∨
      ∃ y j d k, IsRef g y r sp j ∧ s = refSymOf y r sp j ∧ DeclAt sp r d k ∧ CodeDef sp r i d ∧ Matches j k (nameOf d) := by
  rcases space_cases sp with hm | rfl | rfl
  · obtain ⟨ds, h1, h2⟩ := findDefs_module hs h hm
    have key : (symbolTable (Red.root g)).references incl x.key = some ((symbolTable (Red.root g)).symbols.filter fun s =>
        (s.kind == defSym sp && incl && i.toIdx.isDefinedBy s.idx && s.region == r.key) ||
          (s.kind == refSym sp && (ds.any fun d => s.idx.isDefinedBy d.idx) && s.region == r.key)) := by
      unfold SymbolTable.references
      rw [h.byKey hs]
      revert hm
      cases sp <;> simp [isModuleSpace, refSymOf, defSym, SymKind.refKind, refSym, SymKind.defKind, h1]
    have hdec : ∀ d k, declSym sp r d k = fieldSymOf d r sp k := by
      intro d k; rw [declSym, if_neg (by rintro rfl; cases hm)]
    have hcd : ∀ d, CodeDef sp r i d ↔ ∃ k : Nat, (fields r)[k]? = some d ∧ fieldSpace d.kind = some sp ∧ Matches i k (nameOf d) := by
      intro d; revert hm; cases sp <;> simp [isModuleSpace, CodeDef]
    have hrm := h.module hs hm
    rw [key]
    simp only [Option.getD_some, List.mem_filter, Bool.and_eq_true, Bool.or_eq_true, beq_iff_eq, List.any_eq_true, declAt_module hm, hdec, hcd]
    constructor
    · rintro ⟨hmem, ⟨⟨⟨k1, k2⟩, k3⟩, k4⟩ | ⟨⟨k1, d, k2, k3⟩, k4⟩⟩
      · obtain ⟨y, hy⟩ := (mem_symbols_iff hs).mp hmem
        obtain ⟨m, k, m1, m2, m3, rfl⟩ := field_sym hy k1 hm
        have := module_key_inj hs m1 hrm k4
        subst this
        exact .inl ⟨k2, y, k, ⟨m2, m3⟩, (isDefinedBy_iff _ _ _).mp k3, rfl⟩
      · obtain ⟨y, hy⟩ := (mem_symbols_iff hs).mp hmem
        obtain ⟨r', j, hR, rfl⟩ := use_sym hy k1
        have := hR.scope_inj hs h hsp k4
        subst this
        obtain ⟨k, d', e1, e2, e3, rfl⟩ := (h2 _).mp k2
        exact .inr ⟨y, j, d', k, hR, rfl, ⟨e1, e2⟩, ⟨k, e1, e2, e3⟩, (isDefinedBy_iff _ _ _).mp k3⟩
    · rintro (⟨k1, d, k, ⟨k2, k3⟩, k4, rfl⟩ | ⟨y, j, d, k, hR, rfl, ⟨k1, k2⟩, ⟨k', k3, k4, k5⟩, k6⟩)
      · exact ⟨(mem_symbols_iff hs).mpr ⟨d, .field hrm k2 k3⟩, .inl ⟨⟨⟨rfl, k1⟩, (isDefinedBy_iff _ _ _).mpr k4⟩, rfl⟩⟩
      · have := pairwise_ne_getElem? (fields_ne hs ((InTree.root g).child hrm)) k1 k3
        subst this
        exact ⟨hR.mem hs, .inr ⟨⟨rfl, _, (h2 _).mpr ⟨k, d, k3, k4, k5, rfl⟩, (isDefinedBy_iff _ _ _).mpr k6⟩, rfl⟩⟩
  · have key : (symbolTable (Red.root g)).references incl x.key =
        ((symbolTable (Red.root g)).findParamOrLocalDef x.key).map fun d => (symbolTable (Red.root g)).symbols.filter fun s =>
          ((s.kind == .param || s.kind == .local) && incl && i.toIdx.isDefinedBy s.idx && s.region == r.key) ||
            (s.kind == .localRef && s.idx.isDefinedBy d.idx && s.region == r.key) := by
      unfold SymbolTable.references
      rw [h.byKey hs]
      rfl
    rw [key, findLocal_eq hs h]
    have hdec : ∀ d k, declSym .local r d k = slotSymOf d r k := fun d k => by rw [declSym, if_pos rfl]
    simp only [hdec]
    have hft := h.scope_mem.2.1
    cases hf : (localSlots r).zipIdx.find? fun q => i.toIdx.isDefinedBy ⟨some q.2, nameOf q.1⟩ with
    | none =>
      simp only [Option.map_none, Option.getD_none, List.not_mem_nil, false_iff, not_or]
      constructor
      · rintro ⟨_, d, k, k1, k2, _⟩
        have := List.find?_eq_none.mp hf (d, k) (List.mem_zipIdx_iff_getElem?.mpr k1)
        exact this ((isDefinedBy_iff _ _ _).mpr k2)
      · rintro ⟨_, _, d, k, _, _, _, k1, _⟩
        simp [CodeDef, hf] at k1
    | some q =>
      have hq : (localSlots r)[q.2]? = some q.1 := List.mem_zipIdx_iff_getElem?.mp (List.mem_of_find?_eq_some hf)
      simp only [Option.map_some, Option.getD_some, List.mem_filter, Bool.and_eq_true, Bool.or_eq_true, beq_iff_eq]
      constructor
      · rintro ⟨hmem, ⟨⟨⟨k1, k2⟩, k3⟩, k4⟩ | ⟨⟨k1, k3⟩, k4⟩⟩
        · obtain ⟨y, hy⟩ := (mem_symbols_iff hs).mp hmem
          obtain ⟨f, k, m1, m2, m3, rfl⟩ := slot_sym hy k1
          have := InTree.key_inj hs m1 hft k4 (by rw [h.func]; rfl)
          subst this
          exact .inl ⟨k2, y, k, m3, (isDefinedBy_iff _ _ _).mp k3, rfl⟩
        · obtain ⟨y, hy⟩ := (mem_symbols_iff hs).mp hmem
          obtain ⟨r', j, hR, rfl⟩ := use_sym (sp := .local) hy k1
          have := hR.scope_inj hs h hsp k4
          subst this
          exact .inr ⟨y, j, q.1, q.2, hR, rfl, hq, by simp [CodeDef, hf], (isDefinedBy_iff _ _ _).mp k3⟩
      · rintro (⟨k1, d, k, k2, k4, rfl⟩ | ⟨y, j, d, k, hR, rfl, k1, k2, k6⟩)
        · refine ⟨(mem_symbols_iff hs).mpr ⟨d, .slot hft h.func k2⟩, .inl ⟨⟨⟨?_, k1⟩, (isDefinedBy_iff _ _ _).mpr k4⟩, rfl⟩⟩
          unfold slotSymOf; dsimp only; split <;> simp
        · simp only [CodeDef, hf, Option.map_some, Option.some.injEq] at k2
          subst k2
          have := pairwise_ne_getElem? (localSlots_ne hs hft) k1 hq
          subst this
          exact ⟨hR.mem hs, .inr ⟨⟨rfl, (isDefinedBy_iff _ _ _).mpr k6⟩, rfl⟩⟩
  · exact absurd rfl hsp

/-- Nothing is listed for a node without a symbol. -/
theorem references_has (hs : Solid g) {x : Red} {sp : Space} {i : Index} (hxt : InTree g x) (hr : RefersTo x sp)
    (hi : indexOf x = some i) {incl : Bool} {s : Sym} (h1 : s ∈ ((symbolTable (Red.root g)).references incl x.key).getD []) :
    ∃ r, IsRef g x r sp i := by
  have hne : mayBeEmpty x.kind = false := by
    rcases refersTo_kind hs hxt hr with h | h <;> rw [h] <;> rfl
  cases hb : (symbolTable (Red.root g)).byKey x.key with
  | none =>
    have : (symbolTable (Red.root g)).references incl x.key = none := by unfold SymbolTable.references; rw [hb]; rfl
    rw [this] at h1; cases h1
  | some cur =>
    have hm := List.mem_of_find?_eq_some hb
    have hkey : cur.key = x.key := by
      have := List.find?_some (p := fun s : Sym => s.key == x.key) hb
      simpa using this
    obtain ⟨z, hz⟩ := (mem_symbols_iff hs).mp hm
    obtain ⟨hzt, hzk, _⟩ := hz.inTree hs
    have := InTree.key_inj hs hzt hxt (by rw [← hzk, hkey]) hne
    subst this
    exact sym_scope hs hxt hr hi hz

/-- What find-references lists for a declaration besides the references. -/
theorem references_incl_field (hs : Solid g) {m d : Red} {sp : Space} {k : Nat} (hm : m ∈ (Red.root g).children)
    (hf : (fields m)[k]? = some d) (hsp : fieldSpace d.kind = some sp) (s : Sym) :
    s ∈ ((symbolTable (Red.root g)).references true d.key).getD [] ↔
      s ∈ ((symbolTable (Red.root g)).references false d.key).getD [] ∨ s = fieldSymOf d m sp k := by
  have hms := fieldSpace_module hsp
  have hsym : IsSym g (fieldSymOf d m sp k) d := .field hm hf hsp
  have hmem := (mem_symbols_iff hs).mpr ⟨d, hsym⟩
  have hby : (symbolTable (Red.root g)).byKey d.key = some (fieldSymOf d m sp k) := byKey_eq hs hmem
  have key : ∀ incl, ((symbolTable (Red.root g)).references incl d.key) = some ((symbolTable (Red.root g)).symbols.filter fun s =>
      (s.kind == defSym sp && incl && (⟨some k, nameOf d⟩ : Idx) == s.idx && s.region == m.key) ||
      (s.kind == refSym sp && s.idx.isDefinedBy ⟨some k, nameOf d⟩ && s.region == m.key)) := by
    intro incl
    unfold SymbolTable.references
    rw [hby]
    revert hms
    cases sp <;> simp [isModuleSpace, fieldSymOf, defSym, SymKind.refKind, refSym]
  rw [key, key]
  simp only [Option.getD_some, List.mem_filter, Bool.and_eq_true, Bool.or_eq_true, beq_iff_eq]
  constructor
  · rintro ⟨h0, ⟨⟨⟨h1, _⟩, h2⟩, h3⟩ | h1⟩
    · obtain ⟨y, hy⟩ := (mem_symbols_iff hs).mp h0
      obtain ⟨m', k', m1, m2, m3, rfl⟩ := field_sym hy h1 hms
      have := module_key_inj hs m1 hm h3
      subst this
      have e : k = k' := by simpa [fieldSymOf] using congrArg Idx.num h2
      subst e
      rw [hf] at m2; cases m2
      exact .inr rfl
    · exact .inl ⟨h0, .inr h1⟩
  · rintro (⟨h0, ⟨⟨⟨_, h1⟩, _⟩, _⟩ | h1⟩ | rfl)
    · cases h1
    · exact ⟨h0, .inr h1⟩
    · exact ⟨hmem, .inl ⟨⟨⟨rfl, trivial⟩, rfl⟩, rfl⟩⟩

/-- What find-references lists for a parameter or local besides the references. -/
theorem references_incl_slot (hs : Solid g) {f d : Red} {j : Nat} (hft : InTree g f) (hfk : f.kind = .MODULE_FIELD_FUNC)
    (hf : (localSlots f)[j]? = some d) (s : Sym) :
    s ∈ ((symbolTable (Red.root g)).references true d.key).getD [] ↔
      s ∈ ((symbolTable (Red.root g)).references false d.key).getD [] ∨ s = slotSymOf d f j := by
  have hsym : IsSym g (slotSymOf d f j) d := .slot hft hfk hf
  have hmem := (mem_symbols_iff hs).mpr ⟨d, hsym⟩
  have hby : (symbolTable (Red.root g)).byKey d.key = some (slotSymOf d f j) := byKey_eq hs hmem
  have hkind : (slotSymOf d f j).kind = .param ∨ (slotSymOf d f j).kind = .local := by
    unfold slotSymOf; dsimp only; split <;> simp
  have key : ∀ incl, ((symbolTable (Red.root g)).references incl d.key) = some ((symbolTable (Red.root g)).symbols.filter fun s =>
      (s.kind == (slotSymOf d f j).kind && incl && (⟨some j, nameOf d⟩ : Idx) == s.idx && s.region == f.key) ||
      (s.kind == .localRef && s.idx.isDefinedBy ⟨some j, nameOf d⟩ && s.region == f.key)) := by
    intro incl
    unfold SymbolTable.references
    rw [hby]
    unfold slotSymOf
    simp only [Option.bind_some]
    by_cases hj : j < paramCount f
    · simp [hj, SymKind.refKind]
    · simp [hj, SymKind.refKind]
  rw [key, key]
  simp only [Option.getD_some, List.mem_filter, Bool.and_eq_true, Bool.or_eq_true, beq_iff_eq]
  constructor
  · rintro ⟨h0, ⟨⟨⟨h1, _⟩, h2⟩, h3⟩ | h1⟩
    · obtain ⟨y, hy⟩ := (mem_symbols_iff hs).mp h0
      obtain ⟨f', k', m1, m2, m3, rfl⟩ := slot_sym hy (by rw [h1]; exact hkind)
      have := InTree.key_inj hs m1 hft h3 (by rw [hfk]; rfl)
      subst this
      have e : j = k' := by simpa [slotSymOf] using congrArg Idx.num h2
      subst e
      rw [hf] at m3; cases m3
      exact .inr rfl
    · exact .inl ⟨h0, .inr h1⟩
  · rintro (⟨h0, ⟨⟨⟨_, h1⟩, _⟩, _⟩ | h1⟩ | rfl)
    · cases h1
    · exact ⟨h0, .inr h1⟩
    · exact ⟨hmem, .inl ⟨⟨⟨rfl, trivial⟩, rfl⟩, rfl⟩⟩

theorem declSym_inj {sp sp' : Space} {r r' d d' : Red} {k k' : Nat} (hsp : sp ≠ .label) (hsp' : sp' ≠ .label)
    (h : declSym sp r d k = declSym sp' r' d' k') : sp = sp' ∧ r.key = r'.key ∧ k = k' := by
  have hk := congrArg Sym.kind h
  have hr := congrArg Sym.region h
  have hi := congrArg (fun s => s.idx.num) h
  have e : sp = sp' := by
    revert hk
    unfold declSym slotSymOf fieldSymOf
    by_cases h1 : k < paramCount r <;> by_cases h2 : k' < paramCount r' <;> simp only [h1, h2, if_true, if_false] <;>
      (cases sp <;> cases sp' <;> simp [defSym] at hsp hsp' ⊢)
  subst e
  revert hr hi
  unfold declSym slotSymOf fieldSymOf
  by_cases h1 : sp = .local <;> simp [h1] <;> exact fun a b => ⟨a, b⟩

theorem _root_.Verif.Spec.CursorOn.unique {root : Red} {off : Nat} {t t' : Tok} (h : CursorOn root off t) (h' : CursorOn root off t') : t = t' := by
  rcases h.only t' h'.mem h'.touch with e | e
  · exact e.symm
  · rw [h'.sig] at e; cases e

theorem isIndexToken_ref {k : Kind} (h : isIndexToken k = true) : isRefToken k = true := by
  revert h; cases k <;> simp [isIndexToken, isRefToken]

theorem isNameToken_ref {k : Kind} (h : isNameToken k = true) : isRefToken k = true := by
  revert h; cases k <;> simp [isNameToken, isRefToken]

theorem isRange_fun {src : Text} {ab : Nat × Nat} {r r' : Range} (h : IsRange src ab r) (h' : IsRange src ab r') : r = r' := by
  have h1 := rowanRangeToLsp_iff.mpr h
  rw [rowanRangeToLsp_iff.mpr h'] at h1
  exact (Option.some.inj h1).symm

end Verif
