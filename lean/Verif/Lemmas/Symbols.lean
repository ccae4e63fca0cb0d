import Verif.Lemmas.Binder
/-!
Helper lemmas: the symbols of a well-shaped tree, described by the specification of names and scopes.
-/
set_option linter.unusedSimpArgs false
namespace Verif
open Spec

variable {g : Green}

/-- Definition kind of a space. -/
def defSym : Space → SymKind
  | .func => .func | .type => .type | .global => .globalDef | .memory => .memoryDef | .table => .tableDef
  | .local => .local | .label => .blockDef

/-- Reference kind of a space. -/
def refSym : Space → SymKind
  | .func => .call | .type => .typeUse | .global => .globalRef | .memory => .memoryRef | .table => .tableRef
  | .local => .localRef | .label => .blockRef

/-- An index as the code's pair of options. -/
def Spec.Index.toIdx : Index → Idx
  | .name t => ⟨none, some t⟩
  | .num n => ⟨some n, none⟩

/-- The number of parameters among the slots of a function. -/
def paramCount (f : Red) : Nat :=
  (((f.children.filter fun c => c.kind == Kind.TYPE_USE).take 1).flatMap fun tu =>
    tu.children.filter fun c => c.kind == Kind.PARAM).flatMap slots |>.length

/-- The symbol `s` is recorded for the node `x`. -/
inductive IsSym (g : Green) : Sym → Red → Prop where
  | module {m : Red} : m ∈ (Red.root g).children →
      IsSym g ⟨m.key, m.green, (Red.root g).key, .module, ⟨none, none⟩⟩ m
  | field {m x : Red} {k : Nat} {sp : Space} : m ∈ (Red.root g).children → (fields m)[k]? = some x →
      fieldSpace x.kind = some sp → IsSym g ⟨x.key, x.green, m.key, defSym sp, ⟨some k, nameOf x⟩⟩ x
  | slot {f x : Red} {j : Nat} : InTree g f → f.kind = .MODULE_FIELD_FUNC → (localSlots f)[j]? = some x →
      IsSym g ⟨x.key, x.green, f.key, if j < paramCount f then .param else .local, ⟨some j, nameOf x⟩⟩ x
  | ref {x r : Red} {sp : Space} {i : Index} : InTree g x → RefersTo x sp → scopeOf sp x = some r →
      indexOf x = some i → IsSym g ⟨x.key, x.green, r.key, refSym sp, i.toIdx⟩ x
  | block {x p : Red} : InTree g x → isLabel x.kind = true → x.parent = some p →
      IsSym g ⟨x.key, x.green, p.key, .blockDef, ⟨some 0, nameOf x⟩⟩ x

/-! ### Numerals -/

theorem digitsVal_eq (ds : Text) : ∀ acc, digitsVal acc ds =
    if ∀ c ∈ ds, '0' ≤ c ∧ c ≤ '9' then some (ds.foldl (fun a c => 10 * a + (c.toNat - 48)) acc) else none := by
  induction ds with
  | nil => intro acc; simp [digitsVal]
  | cons c ds ih =>
    intro acc
    rw [digitsVal, ih]
    have e : '0'.toNat = 48 := by decide
    rw [e, Nat.mul_comm acc 10]
    by_cases h1 : '0' ≤ c ∧ c ≤ '9'
    · rw [if_pos h1]
      simp only [List.forall_mem_cons, h1, true_and, and_self, List.foldl_cons]
    · rw [if_neg h1, if_neg]
      intro h; exact h1 (h c (by simp))

theorem parseU32_eq (t : Text) : parseU32 t = decimal t := by
  unfold parseU32 decimal
  have e : (if t.head? = some '+' then t.tail else t) = stripPlus t := by
    cases t with
    | nil => rfl
    | cons c t => simp [stripPlus]
  rw [e]
  generalize stripPlus t = ds
  dsimp only
  rw [digitsVal_eq]
  by_cases h0 : ds = []
  · simp [h0]
  · rw [if_neg h0]
    by_cases h : ∀ x ∈ ds, '0' ≤ x ∧ x ≤ '9'
    · rw [if_pos h, if_pos ⟨h0, h⟩]; rfl
    · rw [if_neg h, if_neg (fun h' => h h'.2)]; rfl

theorem refSymbol_eq (x : Red) (region : Key) (kind : SymKind) : refSymbol x region kind =
    (indexOf x).map fun i => ⟨x.key, x.green, region, kind, i.toIdx⟩ := by
  unfold refSymbol indexOf
  have e : nameOf x = x.identText := rfl
  rw [e]
  cases x.identText with
  | some t => rfl
  | none =>
    dsimp only
    cases x.childToks.find? fun t => t.kind == .UNSIGNED_INT || t.kind == .INT with
    | none => rfl
    | some t =>
      simp only [Option.bind_some, parseU32_eq, Option.map_map]
      rfl

/-! ### Instructions -/

theorem instrRef_iff (name : Text) (kind : SymKind) (sc : Kind → Bool) (all : Bool) :
    instrRef name = some (kind, sc, all) ↔
      ∃ sp, (name, sp) ∈ instrSpace ∧ kind = refSym sp ∧ sc = scopeKind sp ∧ (all = false ↔ name = t!"table.init") := by
  have e1 : isModule = scopeKind .func := rfl
  have e2 : isBlock = scopeKind .label := by funext k; cases k <;> rfl
  constructor
  · intro h
    unfold instrRef at h
    split at h
    · rename_i hm
      cases h
      refine ⟨.func, ?_, rfl, rfl, ?_⟩ <;>
        (simp only [List.mem_cons, List.not_mem_nil, or_false] at hm; rcases hm with rfl | rfl | rfl <;> decide)
    · split at h
      · rename_i hm
        cases h
        refine ⟨.local, ?_, rfl, rfl, ?_⟩ <;>
          (simp only [List.mem_cons, List.not_mem_nil, or_false] at hm; rcases hm with rfl | rfl | rfl <;> decide)
      · split at h
        · rename_i hm
          cases h
          refine ⟨.global, ?_, rfl, rfl, ?_⟩ <;>
            (simp only [List.mem_cons, List.not_mem_nil, or_false] at hm; rcases hm with rfl | rfl <;> decide)
        · split at h
          · rename_i hm
            cases h
            refine ⟨.label, ?_, rfl, e2, ?_⟩ <;>
              (simp only [List.mem_cons, List.not_mem_nil, or_false] at hm; rcases hm with rfl | rfl | rfl <;> decide)
          · split at h
            · rename_i hm
              cases h
              refine ⟨.table, ?_, rfl, rfl, ?_⟩ <;>
                (simp only [List.mem_cons, List.not_mem_nil, or_false] at hm
                 rcases hm with rfl | rfl | rfl | rfl | rfl | rfl <;> decide)
            · split at h
              · rename_i hm
                cases h
                refine ⟨.table, ?_, rfl, rfl, ?_⟩ <;>
                  (simp only [List.mem_cons, List.not_mem_nil, or_false] at hm; subst hm; decide)
              · cases h
  · rintro ⟨sp, h1, rfl, rfl, h2⟩
    have key : ∀ e ∈ instrSpace, instrRef e.1 = some (refSym e.2, scopeKind e.2, decide (e.1 ≠ t!"table.init")) := by
      simp only [instrSpace, List.forall_mem_cons, List.not_mem_nil, false_imp_iff, implies_true, and_true]
      rw [← e2]
      refine ⟨?_, ?_, ?_, ?_, ?_, ?_, ?_, ?_, ?_, ?_, ?_, ?_, ?_, ?_, ?_, ?_, ?_, ?_⟩ <;> rfl
    rw [key _ h1]
    congr 3
    cases all
    · simp [h2.mp rfl]
    · have : name ≠ t!"table.init" := fun h => by have := h2.mpr h; cases this
      simp [this]

/-! ### Fields -/

theorem filter_getElem? {p : α → Bool} {l : List α} {k : Nat} {x : α} : (l.filter p)[k]? = some x ↔
    ∃ a b, l = a ++ x :: b ∧ p x = true ∧ (a.filter p).length = k := by
  induction l generalizing k with
  | nil => simp
  | cons y l ih =>
    rw [List.filter_cons]
    constructor
    · intro h
      split at h
      · rename_i hy
        cases k with
        | zero =>
          simp only [List.getElem?_cons_zero, Option.some.injEq] at h
          subst h
          exact ⟨[], l, rfl, hy, rfl⟩
        | succ k =>
          rw [List.getElem?_cons_succ] at h
          obtain ⟨a, b, rfl, h2, h3⟩ := ih.mp h
          exact ⟨y :: a, b, rfl, h2, by rw [List.filter_cons, if_pos hy]; simp [h3]⟩
      · rename_i hy
        obtain ⟨a, b, rfl, h2, h3⟩ := ih.mp h
        exact ⟨y :: a, b, rfl, h2, by rw [List.filter_cons, if_neg hy]; exact h3⟩
    · rintro ⟨a, b, h1, h2, h3⟩
      cases a with
      | nil =>
        simp only [List.nil_append, List.cons.injEq] at h1
        obtain ⟨rfl, rfl⟩ := h1
        rw [if_pos h2]
        simp at h3
        subst h3; rfl
      | cons z a =>
        simp only [List.cons_append, List.cons.injEq] at h1
        obtain ⟨rfl, h1⟩ := h1
        rw [List.filter_cons] at h3
        split
        · rename_i hy
          rw [if_pos hy] at h3
          cases k with
          | zero => simp at h3
          | succ k =>
            rw [List.getElem?_cons_succ]
            exact ih.mpr ⟨a, b, h1, h2, by simpa using h3⟩
        · rename_i hy
          rw [if_neg hy] at h3
          exact ih.mpr ⟨a, b, h1, h2, h3⟩

theorem module_ancestor_unique {m q x : Red} (hm : m ∈ (Red.root g).children) (hq : q ∈ (Red.root g).children)
    (h1 : m ∈ x.ancestors) (h2 : q ∈ x.ancestors) : m = q := by
  obtain ⟨a, ha⟩ := Red.mem_ancestors.mp h1
  obtain ⟨b, hb⟩ := Red.mem_ancestors.mp h2
  have u1 := (Red.mem_children.mp hm).2
  have u2 := (Red.mem_children.mp hq).2
  rw [ha, u1, u2] at hb
  have hl := congrArg List.length hb
  simp only [List.length_append, List.length_cons] at hl
  have := List.append_inj hb (by omega)
  have h3 := this.2
  simp only [List.cons.injEq, and_true] at h3
  obtain ⟨f, up⟩ := m
  obtain ⟨f', up'⟩ := q
  simp_all

/-- The module around a node of the module. -/
theorem module_scope (hs : Solid g) {m x : Red} (hm : m ∈ (Red.root g).children) (hx : x ∈ m.descendants) :
    x.enclosing isModule = some m := by
  have hmt := (InTree.root g).child hm
  have hxt := hmt.descendant hx
  have h1 := (hmt.mem_descendants hxt).mp hx
  rcases hxt.module_of hs with rfl | ⟨q, hq, h2, h3⟩
  · exfalso
    obtain ⟨a, ha⟩ := Red.mem_ancestors.mp h1
    rw [(Red.mem_children.mp hm).2] at ha
    have := congrArg List.length ha
    simp [Red.root] at this
  · rw [h2, module_ancestor_unique hm hq h1 h3]

/-- Where fields are. -/
theorem field_parent {k p : Kind} (h : k ∈ allowed p) (hf : (fieldSpace k).isSome) :
    (isImportDesc k = false ∧ p = .MODULE) ∨ (isImportDesc k = true ∧ p = .MODULE_FIELD_IMPORT) := by
  revert h hf
  cases k <;> simp [fieldSpace, isImportDesc] <;> cases p <;> simp [allowed, form, junk, instrKinds, fieldKinds]

theorem import_parent {p : Kind} (h : Kind.MODULE_FIELD_IMPORT ∈ allowed p) : p = .MODULE := by
  revert h; cases p <;> simp [allowed, form, junk, instrKinds, fieldKinds]

theorem Red.parent_mem_ancestors {x p : Red} (h : x.parent = some p) : p ∈ x.ancestors := by
  rw [Red.ancestors_eq, h]
  exact List.mem_cons_of_mem _ p.self_mem_ancestors

theorem Red.ancestors_trans {x y z : Red} (h1 : y ∈ x.ancestors) (h2 : z ∈ y.ancestors) : z ∈ x.ancestors := by
  obtain ⟨a, ha⟩ := Red.mem_ancestors.mp h1
  obtain ⟨b, hb⟩ := Red.mem_ancestors.mp h2
  exact Red.mem_ancestors.mpr ⟨a ++ b, by rw [ha, hb]; simp⟩

theorem field_region (hs : Solid g) {m x : Red} (hm : m ∈ (Red.root g).children) (hx : x ∈ m.descendants)
    (hf : (fieldSpace x.kind).isSome) :
    (if isImportDesc x.kind then x.parent.bind Red.parent else x.parent) = some m := by
  have hmt := (InTree.root g).child hm
  have hxt := hmt.descendant hx
  have hma := (hmt.mem_descendants hxt).mp hx
  obtain ⟨p, hp⟩ := hxt.parent_some hs (by intro h; rw [h] at hf; simp [fieldSpace] at hf)
  have hpt := (hxt.parent hp).1
  rcases field_parent (hxt.parent_kind hs hp) hf with ⟨h1, h2⟩ | ⟨h1, h2⟩
  · rw [h1, hp]
    have := module_ancestor_unique (hpt.module_kind hs h2) hm (Red.parent_mem_ancestors hp) hma
    simp [this]
  · rw [h1, hp]
    obtain ⟨q, hq⟩ := hpt.parent_some hs (by rw [h2]; decide)
    have hqk := hpt.parent_kind hs hq
    rw [h2] at hqk
    have := module_ancestor_unique ((hpt.parent hq).1.module_kind hs (import_parent hqk)) hm
      (Red.ancestors_trans (Red.parent_mem_ancestors hp) (Red.parent_mem_ancestors hq)) hma
    simp [hq, this]

/-! ### Parameters and locals -/

theorem nameOf_valType (hs : Solid g) {v : Red} (hv : InTree g v) (hk : v.kind = .VAL_TYPE) : nameOf v = none := by
  unfold nameOf Red.token
  rw [List.find?_eq_none.mpr]
  · rfl
  · intro t ht
    have := hv.tok_kind hs ht
    rw [hk] at this
    revert this
    cases t.kind <;> simp [allowed]

theorem localSymbols_eq (region : Key) (kind : SymKind) (gs : List Red) : ∀ i,
    (∀ g ∈ gs, ∀ v ∈ g.childrenOf .VAL_TYPE, nameOf v = none) → localSymbols region kind i gs =
      (((gs.flatMap slots).zipIdx i).map (fun p => (⟨p.1.key, p.1.green, region, kind, ⟨some p.2, nameOf p.1⟩⟩ : Sym)),
        i + (gs.flatMap slots).length) := by
  induction gs with
  | nil => intro i _; simp [localSymbols]
  | cons g gs ih =>
    intro i h
    have ih' := fun i => ih i (fun x hx => h x (List.mem_cons_of_mem _ hx))
    have hg := h g (by simp)
    have e : nameOf g = g.identText := rfl
    rw [localSymbols]
    cases hn : g.identText with
    | some name =>
      have e2 : slots g = [g] := by unfold slots; rw [e, hn]; rfl
      simp only [ih', List.flatMap_cons, e2, List.cons_append, List.nil_append, List.zipIdx_cons, List.map_cons,
        List.length_cons, e, hn]
      simp only [Prod.mk.injEq, true_and]; omega
    | none =>
      have e2 : slots g = g.childrenOf .VAL_TYPE := by unfold slots; rw [e, hn]; rfl
      simp only [ih', List.flatMap_cons, e2, List.zipIdx_append, List.map_append, List.length_append, Prod.mk.injEq]
      refine ⟨?_, by omega⟩
      congr 1
      apply List.map_congr_left
      intro p hp
      rw [hg p.1 (List.fst_mem_of_mem_zipIdx hp)]

/-- The groups of parameters of a function. -/
def paramGroups (f : Red) : List Red :=
  ((f.children.filter fun c => c.kind == Kind.TYPE_USE).take 1).flatMap fun tu =>
    tu.children.filter fun c => c.kind == Kind.PARAM

theorem paramGroups_eq (f : Red) : paramGroups f = funcParams f := by
  unfold paramGroups funcParams Red.childOf
  rw [← List.head?_filter]
  cases f.children.filter fun c => c.kind == Kind.TYPE_USE with
  | nil => rfl
  | cons x l => simp [Red.childrenOf]

theorem localSlots_eq (f : Red) : localSlots f =
    (paramGroups f).flatMap slots ++ (f.childrenOf .LOCAL).flatMap slots := rfl

theorem mem_childrenOf {r c : Red} {k : Kind} : c ∈ r.childrenOf k ↔ c ∈ r.children ∧ c.kind = k := by
  unfold Red.childrenOf; simp

theorem mem_paramGroups {f c : Red} (h : c ∈ paramGroups f) :
    c.kind = .PARAM ∧ ∃ tu ∈ f.children, tu.kind = .TYPE_USE ∧ c ∈ tu.children := by
  unfold paramGroups at h
  simp only [List.mem_flatMap, List.mem_filter, beq_iff_eq] at h
  obtain ⟨tu, h1, h2, h3⟩ := h
  have := List.mem_of_mem_take h1
  simp only [List.mem_filter, beq_iff_eq] at this
  exact ⟨h3, tu, this.1, this.2, h2⟩

/-- A parameter or local with its group. -/
theorem mem_slots {grp x : Red} (h : x ∈ slots grp) :
    (x = grp ∧ (nameOf grp).isSome) ∨ (x.kind = .VAL_TYPE ∧ x ∈ grp.children ∧ nameOf grp = none) := by
  unfold slots at h
  split at h
  · rename_i hn; simp at h; exact .inl ⟨h, hn⟩
  · rename_i hn
    simp only [List.mem_filter, beq_iff_eq] at h
    exact .inr ⟨h.2, h.1, by simpa using hn⟩

theorem funcLocals_eq (hs : Solid g) {f : Red} (hf : InTree g f) : funcLocals f =
    (localSlots f).zipIdx.map fun p => (⟨p.1.key, p.1.green, f.key, if p.2 < paramCount f then .param else .local,
      ⟨some p.2, nameOf p.1⟩⟩ : Sym) := by
  have hp : ∀ g ∈ paramGroups f, ∀ v ∈ g.childrenOf .VAL_TYPE, nameOf v = none := by
    intro c hc v hv
    obtain ⟨_, tu, h1, _, h2⟩ := mem_paramGroups hc
    have := mem_childrenOf.mp hv
    exact nameOf_valType hs (((hf.child h1).child h2).child this.1) this.2
  have hl : ∀ g ∈ f.childrenOf .LOCAL, ∀ v ∈ g.childrenOf .VAL_TYPE, nameOf v = none := by
    intro c hc v hv
    have h1 := mem_childrenOf.mp hc
    have := mem_childrenOf.mp hv
    exact nameOf_valType hs ((hf.child h1.1).child this.1) this.2
  unfold funcLocals
  rw [← paramGroups_eq]
  simp only [localSymbols_eq _ _ _ _ hp, localSymbols_eq _ _ _ _ hl, localSlots_eq, List.zipIdx_append, List.map_append]
  have hc : paramCount f = ((paramGroups f).flatMap slots).length := rfl
  congr 1
  · apply List.map_congr_left
    intro p hp
    have := List.snd_lt_of_mem_zipIdx hp
    rw [if_pos (by omega)]
  · apply List.map_congr_left
    intro p hp
    have := List.le_snd_of_mem_zipIdx hp
    rw [if_neg (by omega)]

theorem mem_funcLocals (hs : Solid g) {f : Red} (hf : InTree g f) {s : Sym} : s ∈ funcLocals f ↔
    ∃ j x, (localSlots f)[j]? = some x ∧
      s = ⟨x.key, x.green, f.key, if j < paramCount f then .param else .local, ⟨some j, nameOf x⟩⟩ := by
  rw [funcLocals_eq hs hf, List.mem_map]
  constructor
  · rintro ⟨⟨x, j⟩, h1, rfl⟩
    exact ⟨j, x, List.mem_zipIdx_iff_getElem?.mp h1, rfl⟩
  · rintro ⟨j, x, h1, rfl⟩
    exact ⟨(x, j), List.mem_zipIdx_iff_getElem?.mpr h1, rfl⟩

/-! ### References -/

theorem scopeOf_parent {sp : Space} {x p : Red} (hp : x.parent = some p) (hk : x.kind = .OPERAND ∨ x.kind = .INDEX) :
    scopeOf sp x = p.enclosing (scopeKind sp) := by
  unfold scopeOf Red.enclosing
  rw [Red.ancestors_eq, hp, List.find?_cons_of_neg]
  rcases hk with hk | hk <;> rw [hk] <;> cases sp <;> simp [scopeKind, isLabel]

theorem operand_kind (hs : Solid g) {x p : Red} (hp : InTree g p) (hk : p.kind = .PLAIN_INSTR) (hx : x ∈ p.children) :
    x.kind = .OPERAND := by
  have h1 := hp.child_kind hs hx
  have h2 := node_kind hs (hp.child hx)
  have h3 := ((hp.child hx).frameOk hs).1
  rw [hk] at h1
  by_cases hne : x.self.cs = []
  · have he : mayBeEmpty x.kind = true := by
      cases h : mayBeEmpty x.kind with
      | true => rfl
      | false => exact absurd hne (h3.2.2.1 h)
    revert h1 he
    cases x.kind <;> simp [allowed, junk, mayBeEmpty]
  · obtain ⟨y, ys, hy⟩ := List.exists_cons_of_ne_nil hne
    have h4 := h3.1 y (by rw [hy]; simp)
    have e : x.self.kind = x.kind := rfl
    rw [e] at h4
    revert h1 h2 h4
    cases x.kind <;> simp [allowed, junk]

theorem refersTo_index {k : Kind} {sk : SymKind} {x p : Red} (hi : indexKind k = some sk) (hk : p.kind = k)
    (hp : x.parent = some p) (hx : p.childOf .INDEX = some x) :
    ∃ sp, RefersTo x sp ∧ sk = refSym sp ∧ scopeKind sp = isModule := by
  subst hk
  unfold Red.childOf at hx
  unfold indexKind at hi
  split at hi <;> first | cases hi | skip
  · rename_i h; exact ⟨.func, .func hp (.inl h) hx, rfl, rfl⟩
  · rename_i h; exact ⟨.func, .func hp (.inr h) hx, rfl, rfl⟩
  · rename_i h; exact ⟨.type, .type hp h hx, rfl, rfl⟩
  · rename_i h; exact ⟨.memory, .memory hp (.inl h) hx, rfl, rfl⟩
  · rename_i h; exact ⟨.memory, .memory hp (.inr h) hx, rfl, rfl⟩
  · rename_i h; exact ⟨.table, .table hp h hx, rfl, rfl⟩

theorem refersTo_elim {x : Red} {sp : Space} (h : RefersTo x sp) :
    (∃ p t, x.parent = some p ∧ p.kind = .PLAIN_INSTR ∧ p.token .INSTR_NAME = some t ∧ (t.text, sp) ∈ instrSpace ∧
      (t.text = t!"table.init" → p.children.head? = some x)) ∨
    (∃ p, x.parent = some p ∧ indexKind p.kind = some (refSym sp) ∧ p.childOf .INDEX = some x ∧ scopeKind sp = isModule) := by
  cases h with
  | operand h1 h2 h3 h4 h5 => exact .inl ⟨_, _, h1, h2, h3, h4, h5⟩
  | func h1 h2 h3 => exact .inr ⟨_, h1, by rcases h2 with h | h <;> rw [h] <;> rfl, h3, rfl⟩
  | type h1 h2 h3 => exact .inr ⟨_, h1, by rw [h2]; rfl, h3, rfl⟩
  | memory h1 h2 h3 => exact .inr ⟨_, h1, by rcases h2 with h | h <;> rw [h] <;> rfl, h3, rfl⟩
  | table h1 h2 h3 => exact .inr ⟨_, h1, by rw [h2]; rfl, h3, rfl⟩

theorem fieldKind_eq (k : Kind) : fieldKind k = (fieldSpace k).map defSym := by cases k <;> rfl

theorem isBlock_eq : isBlock = isLabel := by funext k; cases k <;> rfl

theorem mem_instrRefs (hs : Solid g) {n : Red} (hn : InTree g n) (hk : n.kind = .PLAIN_INSTR) {s : Sym} :
    s ∈ instrRefs n ↔ ∃ x sp r i, x ∈ n.children ∧ RefersTo x sp ∧ scopeOf sp x = some r ∧ indexOf x = some i ∧
      s = ⟨x.key, x.green, r.key, refSym sp, i.toIdx⟩ := by
  constructor
  · intro h
    unfold instrRefs at h
    split at h
    · cases h
    · rename_i kind scope all hb
      obtain ⟨name, hname, hir⟩ := Option.bind_eq_some_iff.mp hb
      obtain ⟨t, ht, htn⟩ := Option.map_eq_some_iff.mp hname
      obtain ⟨sp, h1, rfl, rfl, h4⟩ := (instrRef_iff _ _ _ _).mp hir
      split at h
      · cases h
      · rename_i r hr
        have fin : ∀ x ∈ n.children, (name = t!"table.init" → n.children.head? = some x) →
            refSymbol x r.key (refSym sp) = some s → ∃ x sp r i, x ∈ n.children ∧ RefersTo x sp ∧
              scopeOf sp x = some r ∧ indexOf x = some i ∧ s = ⟨x.key, x.green, r.key, refSym sp, i.toIdx⟩ := by
          intro x hx hinit hsym
          rw [refSymbol_eq] at hsym
          obtain ⟨i, hi, rfl⟩ := Option.map_eq_some_iff.mp hsym
          have hp := Red.parent_of_child hx
          refine ⟨x, sp, r, i, hx, .operand hp hk ht (by rw [htn]; exact h1) (by rw [htn]; exact hinit), ?_, hi, rfl⟩
          rw [scopeOf_parent hp (.inl (operand_kind hs hn hk hx)), hr]
        split at h
        · rename_i hall
          obtain ⟨x, hx, hsym⟩ := List.mem_filterMap.mp h
          refine fin x hx (fun hc => ?_) hsym
          rw [h4.mpr hc] at hall; cases hall
        · rename_i hall
          rw [Option.mem_toList] at h
          obtain ⟨x, hx, hsym⟩ := Option.bind_eq_some_iff.mp h
          exact fin x (List.mem_of_mem_head? hx) (fun _ => hx) hsym
  · rintro ⟨x, sp, r, i, hx, hr, hsc, hi, rfl⟩
    have hp := Red.parent_of_child hx
    rw [scopeOf_parent hp (.inl (operand_kind hs hn hk hx))] at hsc
    rcases refersTo_elim hr with ⟨p, t, h1, h2, h3, h4, h5⟩ | ⟨p, h1, h2, _⟩
    · rw [hp] at h1; cases h1
      unfold instrRefs
      have e : n.instrName.bind instrRef = some (refSym sp, scopeKind sp, decide (t.text ≠ t!"table.init")) := by
        unfold Red.instrName
        rw [h3]
        exact (instrRef_iff _ _ _ _).mpr ⟨sp, h4, rfl, rfl, by simp⟩
      have hsy : refSymbol x r.key (refSym sp) = some ⟨x.key, x.green, r.key, refSym sp, i.toIdx⟩ := by
        rw [refSymbol_eq, hi]; rfl
      rw [e]
      dsimp only
      rw [hsc]
      dsimp only
      split
      · exact List.mem_filterMap.mpr ⟨x, hx, hsy⟩
      · rename_i hd
        rw [h5 (by simpa using hd)]
        simp [hsy]
    · rw [hp] at h1; cases h1
      rw [hk] at h2; cases h2

theorem mem_indexRef {n : Red} {sk : SymKind} (hk : indexKind n.kind = some sk) {s : Sym} :
    indexRef n sk = some s ↔ ∃ x sp r i, x ∈ n.children ∧ RefersTo x sp ∧ scopeOf sp x = some r ∧ indexOf x = some i ∧
      s = ⟨x.key, x.green, r.key, refSym sp, i.toIdx⟩ := by
  constructor
  · intro h
    unfold indexRef at h
    split at h
    · rename_i m i hm hi
      have hx := List.mem_of_find?_eq_some hi
      have hik : i.kind = .INDEX := by have := List.find?_some hi; simpa using this
      have hp := Red.parent_of_child hx
      obtain ⟨sp, h1, rfl, h3⟩ := refersTo_index hk rfl hp hi
      rw [refSymbol_eq] at h
      obtain ⟨ix, h4, rfl⟩ := Option.map_eq_some_iff.mp h
      refine ⟨i, sp, m, ix, hx, h1, ?_, h4, rfl⟩
      rw [scopeOf_parent hp (.inr hik), h3, hm]
    · cases h
  · rintro ⟨x, sp, r, i, hx, hr, hsc, hi, rfl⟩
    have hp := Red.parent_of_child hx
    rcases refersTo_elim hr with ⟨p, t, h1, h2, _⟩ | ⟨p, h1, h2, h3, h4⟩
    · rw [hp] at h1; cases h1
      rw [h2] at hk; cases hk
    · rw [hp] at h1; cases h1
      rw [hk] at h2; cases h2
      have hik : x.kind = .INDEX := by have := List.find?_some h3; simpa using this
      rw [scopeOf_parent hp (.inr hik), h4] at hsc
      unfold indexRef
      rw [hsc, h3]
      dsimp only
      rw [refSymbol_eq, hi]; rfl

theorem InTree.in_module (hs : Solid g) {n : Red} (hn : InTree g n) (hk : n.kind ≠ .ROOT) :
    ∃ m ∈ (Red.root g).children, n ∈ m.descendants := by
  rcases hn.module_of hs with rfl | ⟨m, h1, _, h3⟩
  · exact absurd (root_kind hs) hk
  · exact ⟨m, h1, (((InTree.root g).child h1).mem_descendants hn).mpr h3⟩

/-- The symbols of a file. -/
theorem mem_symbols_iff (hs : Solid g) {s : Sym} : s ∈ (symbolTable (Red.root g)).symbols ↔ ∃ x, IsSym g s x := by
  rw [mem_symbols hs]
  constructor
  · rintro ⟨m, hm, a, n, b, h1, h2⟩
    have hmt := (InTree.root g).child hm
    have hnm : n ∈ m.descendants := by rw [h1]; simp
    have hn := hmt.descendant hnm
    unfold symsOf at h2
    split at h2
    · rename_i hk
      have hroot := hn.module_kind hs hk
      rw [Red.parent_of_child hroot] at h2
      simp only [Option.map_some, Option.mem_toList, Option.some.injEq] at h2
      subst h2
      exact ⟨n, .module hroot⟩
    · rename_i hk
      obtain ⟨x, sp, r, i, h3, h4, h5, h6, rfl⟩ := (mem_instrRefs hs hn hk).mp h2
      exact ⟨x, .ref (hn.child h3) h4 h5 h6⟩
    all_goals try
      (rename_i hk
       rw [Option.mem_toList] at h2
       obtain ⟨p, hp, rfl⟩ := Option.map_eq_some_iff.mp h2
       exact ⟨n, .block hn (by rw [hk]; rfl) hp⟩)
    split at h2
    · rename_i sk hf
      rw [fieldKind_eq] at hf
      obtain ⟨sp, hsp, rfl⟩ := Option.map_eq_some_iff.mp hf
      rcases List.mem_append.mp h2 with h2 | h2
      · have hreg := field_region hs hm hnm (by rw [hsp]; rfl)
        refine ⟨n, ?_⟩
        have : s = ⟨n.key, n.green, m.key, defSym sp, ⟨some (a.filter fun n => (fieldSpace n.kind).isSome).length, nameOf n⟩⟩ := by
          rw [Option.mem_toList] at h2
          split at h2 <;> rename_i hi
          · rw [if_pos hi] at hreg
            unfold importDescSymbol at h2
            rw [hreg] at h2
            exact (Option.some.inj h2).symm
          · rw [if_neg hi] at hreg
            unfold parentSymbol at h2
            rw [hreg] at h2
            exact (Option.some.inj h2).symm
        subst this
        exact .field hm (filter_getElem?.mpr ⟨a, b, h1, by rw [hsp]; rfl, rfl⟩) hsp
      · split at h2
        · rename_i hk
          obtain ⟨j, x, h3, rfl⟩ := (mem_funcLocals hs hn).mp h2
          exact ⟨x, .slot hn (by simpa using hk) h3⟩
        · cases h2
    · split at h2
      · rename_i sk hi
        rw [Option.mem_toList] at h2
        obtain ⟨x, sp, r, i, h3, h4, h5, h6, rfl⟩ := (mem_indexRef hi).mp h2
        exact ⟨x, .ref (hn.child h3) h4 h5 h6⟩
      · cases h2
  · rintro ⟨x, h⟩
    have fin : ∀ n, InTree g n → n.kind ≠ .ROOT → (∀ id, s ∈ symsOf id n) →
        ∃ m ∈ (Red.root g).children, ∃ a n b, m.descendants = a ++ n :: b ∧
          s ∈ symsOf (a.filter fun n => (fieldSpace n.kind).isSome).length n := by
      intro n hn hk h
      obtain ⟨m, hm, hd⟩ := hn.in_module hs hk
      obtain ⟨a, b, hab⟩ := List.append_of_mem hd
      exact ⟨m, hm, a, n, b, hab, h _⟩
    cases h with
    | module hm =>
      have hk := root_children hs hm
      refine fin x ((InTree.root g).child hm) (by rw [hk]; decide) (fun id => ?_)
      unfold symsOf
      rw [hk, Red.parent_of_child hm]
      simp
    | @field m _ k sp hm hf hsp =>
      obtain ⟨a, b, h1, h2, rfl⟩ := filter_getElem?.mp hf
      refine ⟨m, hm, a, x, b, h1, ?_⟩
      have hreg := field_region hs hm (x := x) (by rw [h1]; simp) (by rw [hsp]; rfl)
      have e : fieldKind x.kind = some (defSym sp) := by rw [fieldKind_eq, hsp]; rfl
      have e1 : (nameOf x) = x.identText := rfl
      unfold symsOf
      split
      · rename_i h; rw [h] at hsp; cases hsp
      · rename_i h; rw [h] at hsp; cases hsp
      · rename_i h; rw [h] at hsp; cases hsp
      · rename_i h; rw [h] at hsp; cases hsp
      · rename_i h; rw [h] at hsp; cases hsp
      · rw [e]
        apply List.mem_append_left
        rw [Option.mem_toList]
        split <;> rename_i hi
        · rw [if_pos hi] at hreg
          unfold importDescSymbol
          rw [hreg]; rfl
        · rw [if_neg hi] at hreg
          unfold parentSymbol
          rw [hreg]; rfl
    | @slot f _ j hf hk hj =>
      refine fin f hf (by rw [hk]; decide) (fun id => ?_)
      unfold symsOf
      rw [hk]
      simp only [fieldKind, isImportDesc]
      apply List.mem_append_right
      simp only [beq_self_eq_true, if_true]
      exact (mem_funcLocals hs hf).mpr ⟨j, x, hj, rfl⟩
    | @ref _ r sp i hx hr hsc hi =>
      have hr' := hr
      rcases refersTo_elim hr with ⟨p, t, h1, h2, _⟩ | ⟨p, h1, h2, _⟩
      · obtain ⟨hp, hc⟩ := hx.parent h1
        refine fin p hp (by rw [h2]; decide) (fun id => ?_)
        unfold symsOf
        rw [h2]
        exact (mem_instrRefs hs hp h2).mpr ⟨x, sp, r, i, hc, hr', hsc, hi, rfl⟩
      · obtain ⟨hp, hc⟩ := hx.parent h1
        have hm := (mem_indexRef h2).mpr ⟨x, sp, r, i, hc, hr', hsc, hi, rfl⟩
        refine fin p hp (by intro h; rw [h] at h2; cases h2) (fun id => ?_)
        unfold symsOf
        revert h2
        cases hk : p.kind <;> simp [indexKind, fieldKind] <;> intro h2 <;> rw [← h2] at hm ⊢ <;> exact hm
    | @block _ p hx hl hp =>
      refine fin x hx (by intro h; rw [h] at hl; cases hl) (fun id => ?_)
      have e : parentSymbol x 0 .blockDef = some ⟨x.key, x.green, p.key, .blockDef, ⟨some 0, nameOf x⟩⟩ := by
        unfold parentSymbol; rw [hp]; rfl
      unfold symsOf
      revert hl
      cases hk : x.kind <;> simp [isLabel, e]

end Verif
