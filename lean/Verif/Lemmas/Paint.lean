import Verif.Spec.Highlight
import Verif.Lemmas.Rename
/-!
Helper lemmas: the classes of tokens are the specified ones, and the negotiated classes agree with the legend.
-/
namespace Verif
open Spec

variable {g : Green}

/-- Classes of the code and of the specification. -/
def TokenClass.paint : TokenClass → Paint
  | .type => .type
  | .param => .parameter
  | .var => .variable
  | .func => .function
  | .keyword => .keyword
  | .comment => .comment
  | .string => .string
  | .number => .number
  | .op => .operator

theorem paint_inj {a b : TokenClass} (h : a.paint = b.paint) : a = b := by
  cases a <;> cases b <;> first | rfl | cases h

/-- Only references of the local space have an entry that parameters are looked up with. -/
theorem findLocalRef_elim (hs : Solid g) {x : Red} (hx : InTree g x) (hne : mayBeEmpty x.kind = false) {l : Sym}
    (h : (symbolTable (Red.root g)).findLocalRef x.key = some l) : ∃ r i, IsRef g x r .local i ∧ l = refSymOf x r .local i := by
  unfold SymbolTable.findLocalRef at h
  have hm := List.mem_of_find?_eq_some h
  have hp := List.find?_some (p := fun s : Sym => s.kind == .localRef && s.key == x.key) h
  rw [Bool.and_eq_true, beq_iff_eq, beq_iff_eq] at hp
  obtain ⟨y, hy⟩ := (mem_symbols_iff hs).mp hm
  have hyt := hy.inTree hs
  have : y = x := InTree.key_inj hs hyt.1 hx (hyt.2.1.symm.trans hp.2) hne
  subst this
  cases hy with
  | module _ => cases hp.1
  | @field m _ k sp _ _ hsp => have := hp.1; revert this; cases sp <;> simp [defSym]
  | slot _ _ _ => have := hp.1; revert this; simp only; split <;> simp
  | @ref _ r sp i h1 h2 h3 h4 =>
    have : sp = .local := by have := hp.1; revert this; cases sp <;> simp [refSym]
    subst this
    exact ⟨r, i, ⟨h1, h2, h3, h4⟩, rfl⟩
  | block _ _ _ => cases hp.1

theorem paramCount_groups (f : Red) : paramCount f = ((paramGroups f).flatMap slots).length := rfl

/-- The first slots of a function are its parameters. -/
theorem slot_param (hs : Solid g) {f d : Red} {j : Nat} (hf : InTree g f) (h : (localSlots f)[j]? = some d) :
    j < paramCount f ↔ IsParamDecl d := by
  rw [localSlots_eq] at h
  rw [paramCount_groups]
  constructor
  · intro hj
    rw [List.getElem?_append_left hj] at h
    obtain ⟨grp, h1, h2⟩ := List.mem_flatMap.mp (List.mem_of_getElem? h)
    have hk := (mem_paramGroups h1).1
    rcases mem_slots h2 with ⟨rfl, _⟩ | ⟨_, h3, _⟩
    · exact .inl hk
    · exact .inr ⟨_, Red.parent_of_child h3, hk⟩
  · intro hp
    rcases Nat.lt_or_ge j ((paramGroups f).flatMap slots).length with hj | hj
    · exact hj
    · rw [List.getElem?_append_right hj] at h
      obtain ⟨grp, h1, h2⟩ := List.mem_flatMap.mp (List.mem_of_getElem? h)
      have hk := (mem_childrenOf.mp h1).2
      rcases mem_slots h2 with ⟨rfl, _⟩ | ⟨hv, h3, _⟩
      · rcases hp with hp | ⟨q, hq, hqk⟩
        · rw [hk] at hp; cases hp
        · have ht : InTree g d := InTree.child hf (mem_childrenOf.mp h1).1
          have := ht.parent_kind hs hq
          rw [hqk, hk] at this
          exact absurd this (by decide)
      · rcases hp with hp | ⟨q, hq, hqk⟩
        · rw [hv] at hp; cases hp
        · rw [Red.parent_of_child h3] at hq; cases hq
          rw [hk] at hqk; cases hqk

theorem denotes_local {x f d : Red} {i : Index} (h : scopeOf .local x = some f) :
    Denotes .local x i d ↔ ∃ j, (localSlots f)[j]? = some d ∧ Matches i j (nameOf d) := by
  unfold Denotes Matches
  rw [declarations_local h]
  cases i with
  | num k => simp only; exact ⟨fun h => ⟨k, h, rfl⟩, fun ⟨j, h1, h2⟩ => h2 ▸ h1⟩
  | name n =>
    simp only [reduceCtorEq, if_false]
    constructor
    · rintro ⟨h1, h2⟩
      obtain ⟨j, hj⟩ := List.getElem?_of_mem h1
      exact ⟨j, hj, h2⟩
    · rintro ⟨j, h1, h2⟩
      exact ⟨List.mem_of_getElem? h1, h2⟩

theorem paramDecl_kind (hs : Solid g) {d : Red} (hd : InTree g d) (hp : IsParamDecl d) : d.kind = .PARAM ∨ d.kind = .VAL_TYPE := by
  rcases hp with hp | ⟨q, hq, hk⟩
  · exact .inl hp
  · have := hd.parent_kind hs hq
    rw [hk] at this
    have hv : d.kind ∈ allowed .PARAM → isLabel d.kind = true ∨ True := fun _ => .inr trivial
    right
    have hnode : d.kind ∉ form ++ [Kind.IDENT] := by
      obtain ⟨_, hc⟩ := hd.parent hq
      have h1 := (hd.frameOk hs).1.1
      have h2 := (hd.frameOk hs).1.2.2.1
      intro hm
      have h3 : mayBeEmpty d.kind = false ∧ allowed d.kind = [] := by
        revert hm; cases d.kind <;> simp [form, junk, mayBeEmpty, allowed]
      have hne := h2 h3.1
      obtain ⟨c, hc⟩ := List.exists_mem_of_ne_nil _ hne
      have := h1 c hc
      have e : allowed d.self.kind = [] := h3.2
      rw [e] at this
      cases this
    revert this hnode
    cases d.kind <;> simp [form, junk, allowed]

/-- A parameter is found for a node exactly if the node is a reference that resolves to one. -/
theorem findParamDef_iff (hs : Solid g) {x : Red} (hx : InTree g x) (hne : mayBeEmpty x.kind = false) :
    ((symbolTable (Red.root g)).findParamDef x.key).isSome = true ↔ ∃ d, Resolves x d ∧ IsParamDecl d := by
  constructor
  · intro h
    obtain ⟨s, h⟩ := Option.isSome_iff_exists.mp h
    unfold SymbolTable.findParamDef at h
    obtain ⟨l, h1, h2⟩ := Option.bind_eq_some_iff.mp h
    obtain ⟨r, i, hr, rfl⟩ := findLocalRef_elim hs hx hne h1
    have hm := List.mem_of_find?_eq_some h2
    have hp := List.find?_some (p := fun s : Sym => s.region == (refSymOf x r .local i).region && s.kind == .param &&
      (refSymOf x r .local i).idx.isDefinedBy s.idx) h2
    rw [Bool.and_eq_true, Bool.and_eq_true, beq_iff_eq, beq_iff_eq] at hp
    obtain ⟨d, hd⟩ := (mem_symbols_iff hs).mp hm
    obtain ⟨f, j, hf, hfk, hj, rfl⟩ := slot_sym hd (.inl hp.1.2)
    have hfr : f = r := InTree.key_inj hs hf hr.scope_mem.2.1 hp.1.1 (by rw [hr.func]; rfl)
    subst hfr
    have hjp : j < paramCount f := by
      have := hp.1.2
      unfold slotSymOf at this
      simp only at this
      split at this
      · assumption
      · cases this
    refine ⟨d, ⟨.local, i, hr.refers, hr.idx, (denotes_local hr.scope).mpr ⟨j, hj, ?_⟩⟩, (slot_param hs hf hj).mp hjp⟩
    exact (isDefinedBy_iff i j (nameOf d)).mp hp.2
  · rintro ⟨d, ⟨sp, i, h1, h2, h3⟩, hp⟩
    have hmem := denotes_mem h3
    rcases declarations_cases hmem with ⟨rfl, hl⟩ | ⟨rfl, f, hf, hd⟩ | ⟨hm, m, hsc, hd⟩
    · have hdt : InTree g d := hx.ancestor (mem_labelsOf hmem).2
      rcases paramDecl_kind hs hdt hp with h | h <;> rw [h] at hl <;> cases hl
    · have hr : IsRef g x f .local i := ⟨hx, h1, hf, h2⟩
      obtain ⟨j, hj, hmt⟩ := (denotes_local hf).mp h3
      have hjp := (slot_param hs hr.scope_mem.2.1 hj).mpr hp
      unfold SymbolTable.findParamDef
      rw [findLocalRef_eq hs hr, if_pos rfl, Option.bind_some, List.find?_isSome]
      refine ⟨slotSymOf d f j, (mem_symbols_iff hs).mpr ⟨d, .slot hr.scope_mem.2.1 hr.func hj⟩, ?_⟩
      rw [Bool.and_eq_true, Bool.and_eq_true, beq_iff_eq, beq_iff_eq]
      refine ⟨⟨rfl, ?_⟩, (isDefinedBy_iff i j (nameOf d)).mpr hmt⟩
      unfold slotSymOf
      simp only
      rw [if_pos hjp]
    · have hmt : InTree g m := by
        unfold scopeOf at hsc
        exact hx.ancestor (List.mem_of_find?_eq_some hsc)
      unfold indexSpace at hd
      obtain ⟨hd1, hd2⟩ := List.mem_filter.mp hd
      rcases paramDecl_kind hs (hmt.descendant hd1) hp with h | h <;> rw [h] at hd2 <;> cases hd2

theorem isCall_iff (n : Red) : isCall n = true ↔ IsCallInstr n := by
  unfold isCall IsCallInstr
  simp only [List.any_eq_true, Bool.and_eq_true, Bool.or_eq_true, beq_iff_eq, List.mem_cons, List.not_mem_nil, or_false, or_assoc]

theorem takesFunc_iff (n : Red) :
    takesFunc n = true ↔ IsCallInstr n ∨ n.kind = .MODULE_FIELD_START ∨ n.kind = .EXPORT_DESC_FUNC := by
  unfold takesFunc
  rw [Bool.or_eq_true, Bool.or_eq_true, isCall_iff, beq_iff_eq, beq_iff_eq, or_assoc]

theorem isLocalInstr_iff (n : Red) : isLocalInstr n = true ↔ ∃ t, n.token .INSTR_NAME = some t ∧ ∃ r, t.text = t!"local." ++ r := by
  unfold isLocalInstr
  rw [Option.any_eq_true]
  constructor
  · rintro ⟨t, h1, h2⟩
    obtain ⟨r, hr⟩ := List.isPrefixOf_iff_prefix.mp h2
    exact ⟨t, h1, r, hr.symm⟩
  · rintro ⟨t, h1, r, hr⟩
    exact ⟨t, h1, List.isPrefixOf_iff_prefix.mpr ⟨r, hr.symm⟩⟩

theorem option_any_some {p : α → Bool} {a : α} : (some a).any p = p a := rfl

/-- The nodes that hold the numbers and identifiers are not empty. -/
theorem tok_parent_nonempty (hs : Solid g) {t : Tok} (ht : t ∈ (Red.root g).tokens) {x : Red} (hx : t.parent = some x) (k : Kind)
    (hk : t.kind = k) (hkk : k = .INT ∨ k = .UNSIGNED_INT ∨ k = .IDENT) : InTree g x ∧ mayBeEmpty x.kind = false ∧
      ((k = .INT ∨ k = .UNSIGNED_INT) → x.kind ≠ .MODULE_FIELD_FUNC ∧ x.kind ≠ .PARAM) := by
  obtain ⟨p, hp, hpt, hc⟩ := tok_parent ht
  rw [hx] at hp; cases hp
  have := hpt.tok_kind hs hc
  rw [hk] at this
  refine ⟨hpt, ?_, ?_⟩
  · revert this
    rcases hkk with rfl | rfl | rfl <;> cases x.kind <;> simp [allowed, form, junk, instrKinds, fieldKinds, mayBeEmpty]
  · intro h
    revert this
    rcases h with rfl | rfl <;> cases x.kind <;> simp [allowed, form, junk, instrKinds, fieldKinds]

/-- Where functions are named. -/
theorem namesFunc_iff {t : Tok} {x : Red} (hx : t.parent = some x) :
    NamesFunc t ↔ (x.kind == .MODULE_FIELD_FUNC || x.parent.any takesFunc) = true := by
  rw [Bool.or_eq_true, beq_iff_eq, Option.any_eq_true]
  unfold NamesFunc
  rw [hx]
  simp only [Option.some.injEq]
  constructor
  · rintro ⟨_, rfl, h | ⟨q, hq, h⟩⟩
    · exact .inl h
    · exact .inr ⟨q, hq, (takesFunc_iff q).mpr h⟩
  · rintro (h | ⟨q, hq, h⟩)
    · exact ⟨x, rfl, .inl h⟩
    · exact ⟨x, rfl, .inr ⟨q, hq, (takesFunc_iff q).mp h⟩⟩

theorem inLocalInstr_iff {t : Tok} {x : Red} (hx : t.parent = some x) : InLocalInstr t ↔ x.parent.any isLocalInstr = true := by
  rw [Option.any_eq_true]
  unfold InLocalInstr
  rw [hx]
  simp only [Option.some.injEq]
  constructor
  · rintro ⟨_, q, n, rfl, h2, h3, h4⟩; exact ⟨q, h2, (isLocalInstr_iff q).mpr ⟨n, h3, h4⟩⟩
  · rintro ⟨q, h2, h3⟩
    obtain ⟨n, h3, h4⟩ := (isLocalInstr_iff q).mp h3
    exact ⟨x, q, n, rfl, h2, h3, h4⟩

theorem namesParam_iff (hs : Solid g) {t : Tok} {x : Red} (hx : t.parent = some x) (hxt : InTree g x)
    (hne : mayBeEmpty x.kind = false) : NamesParam t ↔
      (x.kind == .PARAM || ((symbolTable (Red.root g)).findParamDef x.key).isSome) = true := by
  rw [Bool.or_eq_true, beq_iff_eq, findParamDef_iff hs hxt hne]
  unfold NamesParam
  rw [hx]
  simp only [Option.some.injEq, exists_eq_left']

/-- The class of a token is what it is highlighted as. -/
theorem tokenClass_iff (hs : Solid g) {t : Tok} (ht : t ∈ (Red.root g).tokens) (p : Paint) :
    Paints t p ↔ ∃ c, tokenClass (symbolTable (Red.root g)) t = some c ∧ c.paint = p := by
  have simple : ∀ c : TokenClass, p = c.paint ↔ ∃ c', some c = some c' ∧ c'.paint = p := by
    intro c; constructor
    · rintro rfl; exact ⟨c, rfl, rfl⟩
    · rintro ⟨_, h, rfl⟩; cases h; rfl
  obtain ⟨x, hx, _, _⟩ := tok_parent ht
  have number : ∀ (k : Kind), t.kind = k → (k = .INT ∨ k = .UNSIGNED_INT) → (Paints t p ↔
      ∃ c, tokenClass (symbolTable (Red.root g)) t = some c ∧ c.paint = p) := by
    intro k hk hkk
    obtain ⟨hxt, hne, hex⟩ := tok_parent_nonempty hs ht hx k hk (by rcases hkk with h | h <;> simp [h])
    have hf := namesFunc_iff hx
    have hl := inLocalInstr_iff hx
    have hp := namesParam_iff hs hx hxt hne
    rw [beq_eq_false_iff_ne.mpr (hex hkk).1, Bool.false_or] at hf
    rw [beq_eq_false_iff_ne.mpr (hex hkk).2, Bool.false_or] at hp
    have e1 : Paints t p ↔ (NamesFunc t ∧ p = .function) ∨ (¬ NamesFunc t ∧ ¬ InLocalInstr t ∧ p = .number) ∨
      (¬ NamesFunc t ∧ InLocalInstr t ∧ NamesParam t ∧ p = .parameter) ∨
      (¬ NamesFunc t ∧ InLocalInstr t ∧ ¬ NamesParam t ∧ p = .variable) := by
      unfold Paints; rw [hk]; rcases hkk with rfl | rfl <;> rfl
    have e2 : tokenClass (symbolTable (Red.root g)) t =
        if x.parent.any takesFunc then some .func
        else if x.parent.any isLocalInstr then
          (if ((symbolTable (Red.root g)).findParamDef x.key).isSome then some .param else some .var)
        else some .number := by
      unfold tokenClass
      rw [hk]
      rcases hkk with rfl | rfl <;> simp only [hx, Option.bind_some] <;> (
        cases x.parent with
        | none => rfl
        | some q =>
          simp only [Option.any_some, Option.filter]
          by_cases h1 : takesFunc q = true
          · simp [h1]
          · by_cases h2 : isLocalInstr q = true <;> simp [h1, h2])
    rw [e1, e2]
    by_cases h1 : NamesFunc t
    · rw [if_pos (hf.mp h1), ← simple]
      simp [h1, TokenClass.paint]
    · rw [if_neg (fun h => h1 (hf.mpr h))]
      by_cases h2 : InLocalInstr t
      · rw [if_pos (hl.mp h2)]
        by_cases h3 : NamesParam t
        · rw [if_pos (hp.mp h3), ← simple]; simp [h1, h2, h3, TokenClass.paint]
        · rw [if_neg (fun h => h3 (hp.mpr h)), ← simple]; simp [h1, h2, h3, TokenClass.paint]
      · rw [if_neg (fun h => h2 (hl.mpr h)), ← simple]; simp [h1, h2, TokenClass.paint]
  have ident : t.kind = .IDENT → (Paints t p ↔ ∃ c, tokenClass (symbolTable (Red.root g)) t = some c ∧ c.paint = p) := by
    intro hk
    obtain ⟨hxt, hne, _⟩ := tok_parent_nonempty hs ht hx .IDENT hk (by simp)
    have hf := namesFunc_iff hx
    have hp := namesParam_iff hs hx hxt hne
    have e1 : Paints t p ↔ (NamesFunc t ∧ p = .function) ∨ (¬ NamesFunc t ∧ NamesParam t ∧ p = .parameter) ∨
      (¬ NamesFunc t ∧ ¬ NamesParam t ∧ p = .variable) := by
      unfold Paints; rw [hk]
    have e2 : tokenClass (symbolTable (Red.root g)) t =
        if x.kind == .MODULE_FIELD_FUNC || x.parent.any takesFunc then some .func
        else if x.kind == .PARAM || ((symbolTable (Red.root g)).findParamDef x.key).isSome then some .param
        else some .var := by
      unfold tokenClass
      rw [hk]
      simp only [hx, Option.bind_some, Option.any_some]
      rw [Bool.or_comm]
    rw [e1, e2]
    by_cases h1 : NamesFunc t
    · rw [if_pos (hf.mp h1), ← simple]
      simp [h1, TokenClass.paint]
    · rw [if_neg (fun h => h1 (hf.mpr h))]
      by_cases h3 : NamesParam t
      · rw [if_pos (hp.mp h3), ← simple]; simp [h1, h3, TokenClass.paint]
      · rw [if_neg (fun h => h3 (hp.mpr h)), ← simple]; simp [h1, h3, TokenClass.paint]
  by_cases h1 : t.kind = .INT
  · exact number _ h1 (.inl rfl)
  by_cases h2 : t.kind = .UNSIGNED_INT
  · exact number _ h2 (.inr rfl)
  by_cases h3 : t.kind = .IDENT
  · exact ident h3
  unfold Paints tokenClass
  revert h1 h2 h3
  cases t.kind <;> intro h1 h2 h3 <;> first
    | exact absurd rfl h1
    | exact absurd rfl h2
    | exact absurd rfl h3
    | exact simple .type
    | exact simple .keyword
    | exact simple .number
    | exact simple .string
    | exact simple .comment
    | exact simple .op
    | simp

/-! ### The legend -/

theorem classOfType_iff (t : Text) (c : TokenClass) : classOfType t = some c ↔ t = c.paint.name := by
  unfold classOfType
  constructor
  · intro h
    repeat' split at h
    all_goals first
      | cases h
        done
      | (rename_i hb
         cases h
         exact eq_of_beq hb)
  · rintro rfl
    cases c <;> decide

/-- The map that is built: every class once, with its type, and exactly the classes the client knows. -/
structure KindsOk (types : List Text) (m : List (TokenClass × Text)) : Prop where
  nodup : (m.map (·.1)).Nodup
  val : ∀ p ∈ m, p.2 = p.1.paint.name
  mem : ∀ c, c ∈ m.map (·.1) ↔ c.paint.name ∈ types

theorem insertKind_eq {types : List Text} {m : List (TokenClass × Text)} (h : KindsOk types m) (k : TokenClass) :
    insertKind m k k.paint.name = if k ∈ m.map (·.1) then m else m ++ [(k, k.paint.name)] := by
  unfold insertKind
  have e : (m.any fun p => p.1 == k) = true ↔ k ∈ m.map (·.1) := by
    rw [List.any_eq_true, List.mem_map]
    simp only [beq_iff_eq]
  by_cases hm : k ∈ m.map (·.1)
  · rw [if_pos (e.mpr hm), if_pos hm]
    conv => rhs; rw [← List.map_id m]
    apply List.map_congr_left
    intro p hp
    simp only [id]
    split
    · rename_i hk
      rw [beq_iff_eq] at hk
      have := h.val p hp
      rw [← hk, ← this]
    · rfl
  · rw [if_neg (fun h => hm (e.mp h)), if_neg hm]

theorem kindsMap_from (types : List Text) : ∀ (done : List Text) (m : List (TokenClass × Text)), KindsOk done m →
    KindsOk (done ++ types) (types.foldl (fun m t => match classOfType t with | some k => insertKind m k t | none => m) m) := by
  induction types with
  | nil => intro done m h; simpa using h
  | cons t types ih =>
    intro done m h
    rw [List.foldl_cons]
    have e : done ++ t :: types = (done ++ [t]) ++ types := by simp
    rw [e]
    apply ih
    cases hc : classOfType t with
    | none =>
      refine ⟨h.nodup, h.val, fun c => ?_⟩
      rw [h.mem c, List.mem_append, List.mem_singleton]
      constructor
      · exact .inl
      · rintro (h1 | h1)
        · exact h1
        · rw [(classOfType_iff t c).mpr h1.symm] at hc; cases hc
    | some k =>
      have ht := (classOfType_iff t k).mp hc
      simp only
      rw [ht, insertKind_eq h]
      by_cases hm : k ∈ m.map (·.1)
      · rw [if_pos hm]
        refine ⟨h.nodup, h.val, fun c => ?_⟩
        rw [h.mem c, List.mem_append, List.mem_singleton]
        constructor
        · exact .inl
        · rintro (h1 | h1)
          · exact h1
          · rw [h1]; exact (h.mem k).mp hm
      · rw [if_neg hm]
        refine ⟨?_, ?_, fun c => ?_⟩
        · rw [List.map_append, List.nodup_append]
          refine ⟨h.nodup, by simp, ?_⟩
          intro a ha b hb
          simp only [List.map_cons, List.map_nil, List.mem_singleton] at hb
          rw [hb]
          rintro rfl
          exact hm ha
        · intro p hp
          rcases List.mem_append.mp hp with hp | hp
          · exact h.val p hp
          · rw [List.mem_singleton] at hp; rw [hp]
        · rw [List.map_append, List.mem_append, h.mem c, List.mem_append, List.mem_singleton]
          simp only [List.map_cons, List.map_nil, List.mem_singleton]
          constructor
          · rintro (h1 | rfl)
            · exact .inl h1
            · exact .inr rfl
          · rintro (h1 | h1)
            · exact .inl h1
            · right
              have h2 : classOfType c.paint.name = some k := by rw [h1]; exact (classOfType_iff _ _).mpr rfl
              rw [(classOfType_iff _ c).mpr rfl] at h2
              cases h2; rfl

theorem kindsMap_ok (types : List Text) : KindsOk types (kindsMap types) :=
  kindsMap_from types [] [] ⟨by simp, by simp, by simp⟩

end Verif
