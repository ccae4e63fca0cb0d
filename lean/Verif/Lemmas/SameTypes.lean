import Verif.Lemmas.SameReports
import Verif.Lemmas.HoverMany
import Verif.Lemmas.Folded
/-!
The type checker on documents that differ in white space and comments only.
-/
namespace Verif
namespace Stripped
open Spec

/-! ### Lists, options and answers, element by element -/

/-- The lists are of the same length, and their elements are related. -/
inductive All2 {α β : Type} (R : α → β → Prop) : List α → List β → Prop where
  | nil : All2 R [] []
  | cons {a : α} {b : β} {l : List α} {l' : List β} : R a b → All2 R l l' → All2 R (a :: l) (b :: l')

/-- The options are both empty or related. -/
inductive Opt2 {α β : Type} (R : α → β → Prop) : Option α → Option β → Prop where
  | none : Opt2 R none none
  | some {a : α} {b : β} : R a b → Opt2 R (some a) (some b)

/-- Both answers are panics or they are related. -/
inductive Ans2 {α β : Type} (R : α → β → Prop) : Ans α → Ans β → Prop where
  | panic : Ans2 R .panic .panic
  | done {a : α} {b : β} : R a b → Ans2 R (.done a) (.done b)

section
variable {α β γ δ : Type} {R : α → β → Prop} {S : γ → δ → Prop}

theorem All2.of_map {f : α → γ} {f' : β → γ} : ∀ {l : List α} {l' : List β}, l.map f = l'.map f' →
    (∀ a ∈ l, ∀ b ∈ l', f a = f' b → R a b) → All2 R l l'
  | [], [], _, _ => .nil
  | [], _ :: _, h, _ => by cases h
  | _ :: _, [], h, _ => by cases h
  | a :: l, b :: l', h, hr => by
    simp only [List.map_cons, List.cons.injEq] at h
    exact .cons (hr a (by simp) b (by simp) h.1) (All2.of_map h.2 fun a ha b hb => hr a (.tail _ ha) b (.tail _ hb))

theorem All2.filter {p : α → Bool} {q : β → Bool} (hpq : ∀ a b, R a b → p a = q b) : ∀ {l : List α} {l' : List β}, All2 R l l' →
    All2 R (l.filter p) (l'.filter q)
  | _, _, .nil => .nil
  | a :: l, b :: l', .cons h t => by
    rw [List.filter_cons, List.filter_cons, hpq a b h]
    split
    · exact .cons h (All2.filter hpq t)
    · exact All2.filter hpq t

theorem All2.map {f : α → γ} {f' : β → δ} (hf : ∀ a b, R a b → S (f a) (f' b)) : ∀ {l : List α} {l' : List β}, All2 R l l' →
    All2 S (l.map f) (l'.map f')
  | _, _, .nil => .nil
  | _ :: _, _ :: _, .cons h t => .cons (hf _ _ h) (All2.map hf t)

theorem All2.append {l m : List α} {l' m' : List β} (h : All2 R l l') (h' : All2 R m m') : All2 R (l ++ m) (l' ++ m') := by
  induction h with
  | nil => exact h'
  | cons a _ ih => exact .cons a ih

theorem All2.flatMap {f : α → List γ} {f' : β → List δ} (hf : ∀ a b, R a b → All2 S (f a) (f' b)) : ∀ {l : List α} {l' : List β},
    All2 R l l' → All2 S (l.flatMap f) (l'.flatMap f')
  | _, _, .nil => .nil
  | _ :: _, _ :: _, .cons h t => by
    rw [List.flatMap_cons, List.flatMap_cons]
    exact (hf _ _ h).append (All2.flatMap hf t)

theorem All2.find {p : α → Bool} {q : β → Bool} (hpq : ∀ a b, R a b → p a = q b) : ∀ {l : List α} {l' : List β}, All2 R l l' →
    Opt2 R (l.find? p) (l'.find? q)
  | _, _, .nil => .none
  | a :: l, b :: l', .cons h t => by
    rw [List.find?_cons, List.find?_cons, hpq a b h]
    split
    · exact .some h
    · exact All2.find hpq t

theorem All2.head : ∀ {l : List α} {l' : List β}, All2 R l l' → Opt2 R l.head? l'.head?
  | _, _, .nil => .none
  | _ :: _, _ :: _, .cons h _ => .some h

theorem All2.length : ∀ {l : List α} {l' : List β}, All2 R l l' → l.length = l'.length
  | _, _, .nil => rfl
  | _ :: _, _ :: _, .cons _ t => by simp [All2.length t]

theorem All2.drop : ∀ (n : Nat) {l : List α} {l' : List β}, All2 R l l' → All2 R (l.drop n) (l'.drop n)
  | 0, _, _, h => h
  | _ + 1, _, _, .nil => .nil
  | n + 1, _ :: _, _ :: _, .cons _ t => All2.drop n t

theorem All2.take : ∀ (n : Nat) {l : List α} {l' : List β}, All2 R l l' → All2 R (l.take n) (l'.take n)
  | 0, _, _, _ => by simp only [List.take_zero]; exact .nil
  | _ + 1, _, _, .nil => .nil
  | n + 1, _ :: _, _ :: _, .cons h t => .cons h (All2.take n t)

theorem All2.mem : ∀ {l : List α} {l' : List β}, All2 R l l' → ∀ a ∈ l, ∃ b ∈ l', R a b
  | _ :: _, _ :: _, .cons h t, a, ha => by
    rcases List.mem_cons.mp ha with rfl | ha
    · exact ⟨_, .head _, h⟩
    · obtain ⟨b, hb, h⟩ := All2.mem t a ha
      exact ⟨b, .tail _ hb, h⟩

theorem All2.all {p : α → Bool} {q : β → Bool} (hpq : ∀ a b, R a b → p a = q b) : ∀ {l : List α} {l' : List β}, All2 R l l' →
    l.all p = l'.all q
  | _, _, .nil => rfl
  | a :: l, b :: l', .cons h t => by rw [List.all_cons, List.all_cons, hpq a b h, All2.all hpq t]

theorem All2.zipIdx : ∀ (n : Nat) {l : List α} {l' : List β}, All2 R l l' →
    All2 (fun p q => R p.1 q.1 ∧ p.2 = q.2) (l.zipIdx n) (l'.zipIdx n)
  | _, _, _, .nil => .nil
  | n, _ :: _, _ :: _, .cons h t => by
    rw [List.zipIdx_cons, List.zipIdx_cons]
    exact .cons ⟨h, rfl⟩ (All2.zipIdx (n + 1) t)

theorem All2.zip {m : List γ} {m' : List δ} : ∀ {l : List α} {l' : List β}, All2 R l l' → All2 S m m' →
    All2 (fun p q => R p.1 q.1 ∧ S p.2 q.2) (l.zip m) (l'.zip m')
  | _, _, .nil, _ => .nil
  | _ :: _, _ :: _, .cons _ _, .nil => .nil
  | _ :: _, _ :: _, .cons h t, .cons h' t' => .cons ⟨h, h'⟩ (All2.zip t t')

theorem All2.filterMap {f : α → Option γ} {f' : β → Option δ} (hf : ∀ a b, R a b → Opt2 S (f a) (f' b)) : ∀ {l : List α} {l' : List β},
    All2 R l l' → All2 S (l.filterMap f) (l'.filterMap f')
  | _, _, .nil => .nil
  | a :: l, b :: l', .cons h t => by
    have := hf a b h
    rw [List.filterMap_cons, List.filterMap_cons]
    revert this
    generalize f a = u, f' b = v
    intro this
    cases this with
    | none => exact All2.filterMap hf t
    | some k => exact .cons k (All2.filterMap hf t)

theorem All2.eq {l l' : List α} (h : All2 (· = ·) l l') : l = l' := by
  induction h with
  | nil => rfl
  | cons h _ ih => rw [h, ih]

theorem All2.refl {R : α → α → Prop} (h : ∀ a, R a a) : ∀ l : List α, All2 R l l
  | [] => .nil
  | a :: l => .cons (h a) (All2.refl h l)

theorem Opt2.bind {f : α → Option γ} {f' : β → Option δ} {a : Option α} {b : Option β} (h : Opt2 R a b)
    (hf : ∀ a b, R a b → Opt2 S (f a) (f' b)) : Opt2 S (a.bind f) (b.bind f') := by
  cases h with
  | none => exact .none
  | some h => exact hf _ _ h

theorem Opt2.eq_of {f : α → γ} {f' : β → γ} {a : Option α} {b : Option β} (h : Opt2 R a b) (hf : ∀ a b, R a b → f a = f' b) :
    a.map f = b.map f' := by
  cases h with
  | none => rfl
  | some h => exact congrArg Option.some (hf _ _ h)

theorem Opt2.mem {a : Option α} {b : Option β} (h : Opt2 R a b) : Opt2 (fun x y => R x y ∧ a = Option.some x ∧ b = Option.some y) a b := by
  cases h with
  | none => exact .none
  | some h => exact .some ⟨h, rfl, rfl⟩

theorem Opt2.map {f : α → γ} {f' : β → δ} {a : Option α} {b : Option β} (h : Opt2 R a b)
    (hf : ∀ a b, R a b → S (f a) (f' b)) : Opt2 S (a.map f) (b.map f') := by
  cases h with
  | none => exact .none
  | some h => exact .some (hf _ _ h)

theorem Opt2.isNone {a : Option α} {b : Option β} (h : Opt2 R a b) : a.isNone = b.isNone := by cases h <;> rfl

theorem Opt2.isSome {a : Option α} {b : Option β} (h : Opt2 R a b) : a.isSome = b.isSome := by cases h <;> rfl

theorem Ans2.bind {a : Ans α} {b : Ans β} (h : Ans2 R a b) {f : α → Ans γ} {f' : β → Ans δ}
    (hf : ∀ a b, R a b → Ans2 S (f a) (f' b)) : Ans2 S (a.bind f) (b.bind f') := by
  cases h with
  | panic => exact .panic
  | done h => exact hf _ _ h

theorem Ans2.refl (a : Ans α) : Ans2 (· = ·) a a := by
  cases a with
  | panic => exact .panic
  | done a => exact .done rfl

theorem Ans2.mapL {f : α → Ans γ} {f' : β → Ans δ} (hf : ∀ a b, R a b → Ans2 S (f a) (f' b)) : ∀ {l : List α} {l' : List β},
    All2 R l l' → Ans2 (All2 S) (Ans.mapL f l) (Ans.mapL f' l')
  | _, _, .nil => .done .nil
  | a :: l, b :: l', .cons h t => by
    simp only [Ans.mapL]
    exact (hf a b h).bind fun x y hxy => (Ans2.mapL hf t).bind fun xs ys hs => .done (.cons hxy hs)

theorem mapL_eq {f : α → Ans γ} {f' : β → Ans γ} (hf : ∀ a b, R a b → f a = f' b) : ∀ {l : List α} {l' : List β},
    All2 R l l' → Ans.mapL f l = Ans.mapL f' l'
  | _, _, .nil => rfl
  | a :: l, b :: l', .cons h t => by simp only [Ans.mapL, hf a b h, mapL_eq hf t]

end

/-! ### Nodes -/

/-- Nodes of two documents that are the same without white space and comments. -/
structure Rel (g g' : Green) (x x' : Red) : Prop where
  left : InTree g x
  right : InTree g' x'
  same : mv g.toks x = mv g'.toks x'

section
variable {g g' : Green} {x x' : Red} (hs : Solid g) (hs' : Solid g')
include hs hs'

omit hs hs' in
theorem Twin.rel (h : Twin g g' x x') : Rel g g' x x' := ⟨h.left, h.right, h.same⟩

theorem Rel.twin (h : Rel g g' x x') (he : strip g = strip g') (hi : Inked x') : Twin g g' x x' := by
  obtain ⟨y, hy⟩ := Twin.exists hs hs' he h.left
  have := mv_inj hs' h.right hy.right hi (h.same.symm.trans hy.same)
  subst this
  exact hy

omit hs hs' in
theorem Rel.kind (h : Rel g g' x x') : x.kind = x'.kind := by
  have := congrArg Red.kind h.same
  exact this

omit hs hs' in
theorem Rel.cs (h : Rel g g' x x') : stripL x.self.cs = stripL x'.self.cs := congrArg (fun r : Red => r.self.cs) h.same

theorem Rel.children (h : Rel g g' x x') : All2 (Rel g g') x.children x'.children := by
  have := congrArg Red.children h.same
  rw [mv_children hs h.left, mv_children hs' h.right] at this
  exact .of_map this fun a ha b hb e => ⟨h.left.child ha, h.right.child hb, e⟩

theorem Rel.childrenOf (h : Rel g g' x x') (k : Kind) : All2 (Rel g g') (x.childrenOf k) (x'.childrenOf k) :=
  (h.children hs hs').filter fun a b hab => by rw [hab.kind]

theorem Rel.childOf (h : Rel g g' x x') (k : Kind) : Opt2 (Rel g g') (x.childOf k) (x'.childOf k) :=
  (h.children hs hs').find fun a b hab => by rw [hab.kind]

theorem Rel.token (h : Rel g g' x x') {k : Kind} (hk : solid k = true) : Opt2 (fun t t' : Tok => t.text = t'.text) (x.token k) (x'.token k) := by
  have := congrArg (fun r : Red => r.token k) h.same
  simp only [mv_token hs h.left hk, mv_token hs' h.right hk] at this
  revert this
  generalize x.token k = a, x'.token k = b
  intro this
  cases a <;> cases b
  · exact .none
  · cases this
  · cases this
  · refine .some ?_
    simp only [Option.map_some, Option.some.injEq] at this
    have := congrArg Tok.text this
    exact this

theorem Rel.instrName (h : Rel g g' x x') : x.instrName = x'.instrName :=
  (h.token hs hs' (k := .INSTR_NAME) rfl).eq_of fun _ _ h => h

theorem Rel.identText (h : Rel g g' x x') : x.identText = x'.identText :=
  (h.token hs hs' (k := .IDENT) rfl).eq_of fun _ _ h => h

theorem Rel.nameOf (h : Rel g g' x x') : nameOf x = nameOf x' := by
  have := congrArg Spec.nameOf h.same
  rwa [mv_nameOf hs h.left, mv_nameOf hs' h.right] at this

/-! ### Types and signatures -/

theorem Rel.valTypeOf (h : Rel g g' x x') : valTypeOf x = valTypeOf x' := by
  unfold Verif.valTypeOf
  have h1 := h.token hs hs' (k := .NUM_TYPE) rfl
  have h2 := h.token hs hs' (k := .VEC_TYPE) rfl
  have h3 := h.token hs hs' (k := .REF_TYPE) rfl
  revert h1 h2 h3
  generalize x.token .NUM_TYPE = a1, x'.token .NUM_TYPE = b1, x.token .VEC_TYPE = a2, x'.token .VEC_TYPE = b2,
    x.token .REF_TYPE = a3, x'.token .REF_TYPE = b3
  rintro (_ | h1) (_ | h2) (_ | h3) <;> simp_all

theorem Rel.paramTypes (h : Rel g g' x x') : paramTypes x = paramTypes x' := by
  unfold Verif.paramTypes
  rw [h.identText hs hs', mapL_eq (fun a b hab => hab.valTypeOf hs hs') (h.childrenOf hs hs' .VAL_TYPE)]
  have h2 := h.childOf hs hs' .VAL_TYPE
  revert h2
  generalize x.childOf .VAL_TYPE = a, x'.childOf .VAL_TYPE = b
  rintro (_ | h2)
  · rfl
  · rename_i a b
    cases x'.identText with
    | none => rfl
    | some n =>
      show (Verif.valTypeOf a).bind _ = (Verif.valTypeOf b).bind _
      rw [h2.valTypeOf hs hs']

theorem Rel.extractSig (h : Rel g g' x x') : extractSig x.green = extractSig x'.green := by
  rw [extractSig_eq, extractSig_eq, mapL_eq (fun a b hab => hab.paramTypes hs hs') (h.childrenOf hs hs' .PARAM),
    mapL_eq (fun a b hab => hab.valTypeOf hs hs') ((h.childrenOf hs hs' .RESULT).flatMap fun a b hab => hab.childrenOf hs hs' .VAL_TYPE)]

/-! ### References -/

omit hs hs' in
theorem Rel.symm (h : Rel g g' x x') : Rel g' g x' x := ⟨h.right, h.left, h.same.symm⟩

theorem Rel.isRef (h : Rel g g' x x') {r : Red} {sp : Space} {i : Index} (hr : IsRef g x r sp i) :
    ∃ r', Rel g g' r r' ∧ IsRef g' x' r' sp i := by
  have h1 := congrArg (scopeOf sp) h.same
  rw [mv_scopeOf, mv_scopeOf, hr.scope] at h1
  obtain ⟨r', h2, h3⟩ := Option.map_eq_some_iff.mp h1.symm
  have hi : indexOf x' = some i := by
    rw [← mv_indexOf hs' h.right, ← h.same, mv_indexOf hs h.left]; exact hr.idx
  have hR : IsRef g' x' r' sp i := by
    refine ⟨h.right, ?_, h2, hi⟩
    rw [← mv_refersTo hs' h.right (indexOf_inked (by rw [hi]; rfl)), ← h.same,
      mv_refersTo hs h.left (indexOf_inked (by rw [hr.idx]; rfl))]
    exact hr.refers
  exact ⟨r', ⟨hr.scope_mem.2.1, hR.scope_mem.2.1, h3.symm⟩, hR⟩

omit hs' in
/-- What the definitions of a reference are, in document order. -/
theorem findDefs_eq {r : Red} {sp : Space} {i : Index} (h : IsRef g x r sp i) (hm : isModuleSpace sp = true) :
    (symbolTable (Red.root g)).findDefs x.key = some (((fields r).zipIdx.filter fun p => fieldSpace p.1.kind == some sp &&
      i.toIdx.isDefinedBy ⟨some p.2, Spec.nameOf p.1⟩).map fun p => fieldSymOf p.1 r sp p.2) := by
  have hd := declaredFields_eq hs (h.module hs hm) hm
  unfold SymbolTable.declaredFields at hd
  unfold SymbolTable.findDefs
  rw [h.byKey hs]
  simp only [Option.bind_some, refSymOf, defKind_refSym, hm, if_true, Option.map_some, Option.some.injEq]
  have e : (fun s : Sym => s.region == r.key && s.kind == defSym sp && i.toIdx.isDefinedBy s.idx) =
      fun s : Sym => i.toIdx.isDefinedBy s.idx && (s.kind == defSym sp && s.region == r.key) := by
    funext s
    simp only [Bool.and_comm]
  rw [e, ← List.filter_filter, hd]
  unfold spaceSyms
  rw [List.filter_map, List.filter_filter]
  congr 1
  apply List.filter_congr
  intro p _
  simp only [Function.comp, fieldSymOf, Bool.and_comm]

/-- Symbols of nodes that are the same. -/
def SymRel (g g' : Green) (s s' : Sym) : Prop := ∃ d d', IsSym g s d ∧ IsSym g' s' d' ∧ Rel g g' d d'

theorem Rel.fields {r r' : Red} (h : Rel g g' r r') : All2 (Rel g g') (fields r) (fields r') := by
  have := congrArg Spec.fields h.same
  rw [mv_fields hs h.left, mv_fields hs' h.right] at this
  exact .of_map this fun a ha b hb e => ⟨h.left.descendant (List.mem_filter.mp ha).1, h.right.descendant (List.mem_filter.mp hb).1, e⟩

theorem Rel.firstDef (h : Rel g g' x x') :
    Opt2 (SymRel g g') ((symbolTable (Red.root g)).firstDef x) ((symbolTable (Red.root g')).firstDef x') := by
  unfold SymbolTable.firstDef
  by_cases hr : ∃ r sp i, IsRef g x r sp i ∧ isModuleSpace sp = true
  · obtain ⟨r, sp, i, hr, hm⟩ := hr
    obtain ⟨r', h1, hr'⟩ := h.isRef hs hs' hr
    rw [findDefs_eq hs hr hm, findDefs_eq hs' hr' hm]
    simp only [Option.bind_some]
    have hf := ((h1.fields hs hs').zipIdx 0).filter (p := fun p => fieldSpace p.1.kind == some sp &&
      i.toIdx.isDefinedBy ⟨some p.2, Spec.nameOf p.1⟩) (q := fun p => fieldSpace p.1.kind == some sp &&
      i.toIdx.isDefinedBy ⟨some p.2, Spec.nameOf p.1⟩) fun a b hab => by rw [hab.1.kind, hab.2, hab.1.nameOf hs hs']
    rw [List.head?_map, List.head?_map]
    refine hf.head.mem.map fun a b hab => ?_
    obtain ⟨⟨h2, _⟩, h3, h4⟩ := hab
    have k3 := List.mem_filter.mp (List.mem_of_mem_head? h3)
    have k4 := List.mem_filter.mp (List.mem_of_mem_head? h4)
    simp only [Bool.and_eq_true, beq_iff_eq] at k3 k4
    exact ⟨a.1, b.1, .field (hr.module hs hm) (List.mem_zipIdx_iff_getElem?.mp k3.1) k3.2.1,
      .field (hr'.module hs' hm) (List.mem_zipIdx_iff_getElem?.mp k4.1) k4.2.1, h2⟩
  · have n1 : (symbolTable (Red.root g)).findDefs x.key = none := by
      cases hd : (symbolTable (Red.root g)).findDefs x.key with
      | none => rfl
      | some l => exact absurd (findDefs_ref hs h.left hd) hr
    have n2 : (symbolTable (Red.root g')).findDefs x'.key = none := by
      cases hd : (symbolTable (Red.root g')).findDefs x'.key with
      | none => rfl
      | some l =>
        obtain ⟨r', sp, i, hr', hm⟩ := findDefs_ref hs' h.right hd
        obtain ⟨r, _, h1⟩ := h.symm.isRef hs' hs hr'
        exact absurd ⟨r, sp, i, h1, hm⟩ hr
    rw [n1, n2]
    exact .none

theorem Rel.localSlots {f f' : Red} (h : Rel g g' f f') : All2 (Rel g g') (localSlots f) (localSlots f') := by
  have := congrArg Spec.localSlots h.same
  rw [mv_localSlots hs h.left, mv_localSlots hs' h.right] at this
  exact .of_map this fun a ha b hb e => ⟨(mem_localSlots h.left ha).1, (mem_localSlots h.right hb).1, e⟩

theorem Rel.findLocal (h : Rel g g' x x') : Opt2 (SymRel g g') ((symbolTable (Red.root g)).findParamOrLocalDef x.key)
    ((symbolTable (Red.root g')).findParamOrLocalDef x'.key) := by
  have ref : ∀ {g : Green} {x : Red}, Solid g → InTree g x → ∀ s, (symbolTable (Red.root g)).findParamOrLocalDef x.key = some s →
      ∃ r i, IsRef g x r .local i := by
    intro g x hs hx s h
    obtain ⟨r, sp, i, hr⟩ := definitions_ref hs hx (d := .scalar s) (by unfold SymbolTable.definitions; rw [h])
    by_cases hsp : sp = .local
    · subst hsp; exact ⟨r, i, hr⟩
    · rw [findLocal_other hs hr hsp] at h; cases h
  by_cases hr : ∃ r i, IsRef g x r .local i
  · obtain ⟨r, i, hr⟩ := hr
    obtain ⟨r', h1, hr'⟩ := h.isRef hs hs' hr
    rw [findLocal_eq hs hr, findLocal_eq hs' hr']
    refine (((h1.localSlots hs hs').zipIdx 0).find fun a b hab => by rw [hab.2, hab.1.nameOf hs hs']).mem.map fun a b hab => ?_
    obtain ⟨⟨h2, _⟩, h3, h4⟩ := hab
    exact ⟨a.1, b.1, .slot h1.left hr.func (List.mem_zipIdx_iff_getElem?.mp (List.mem_of_find?_eq_some h3)),
      .slot h1.right hr'.func (List.mem_zipIdx_iff_getElem?.mp (List.mem_of_find?_eq_some h4)), h2⟩
  · have n1 : (symbolTable (Red.root g)).findParamOrLocalDef x.key = none := by
      cases hd : (symbolTable (Red.root g)).findParamOrLocalDef x.key with
      | none => rfl
      | some s => exact absurd (ref hs h.left s hd) hr
    have n2 : (symbolTable (Red.root g')).findParamOrLocalDef x'.key = none := by
      cases hd : (symbolTable (Red.root g')).findParamOrLocalDef x'.key with
      | none => rfl
      | some s =>
        obtain ⟨r', i, hr'⟩ := ref hs' h.right s hd
        obtain ⟨r, _, h1⟩ := h.symm.isRef hs' hs hr'
        exact absurd ⟨r, i, h1⟩ hr
    rw [n1, n2]
    exact .none

omit hs hs' in
theorem findSome_strip {α : Type} {f : Green → Option α} (hb : ∀ c, isBlank c = true → f c = none) (hn : ∀ c, f (strip c) = f c) :
    ∀ cs : List Green, (stripL cs).findSome? f = cs.findSome? f
  | [] => rfl
  | c :: cs => by
    rw [stripL, List.findSome?_cons]
    split
    · rename_i h
      rw [hb c h, findSome_strip hb hn cs]
    · rw [List.findSome?_cons, hn, findSome_strip hb hn cs]

omit hs hs' in
theorem blank_cases {c : Green} (h : isBlank c = true) : ∃ k t, c = .tok k t ∧ solid k = false := by
  cases c with
  | tok k t => exact ⟨k, t, rfl, by rw [isBlank_tok] at h; simpa using h⟩
  | node k cs => cases h

omit hs hs' in
theorem greenType_strip (k : Kind) (cs : List Green) : greenType (.node k (stripL cs)) = greenType (.node k cs) := by
  refine findSome_strip (fun c hc => ?_) (fun c => ?_) cs
  · obtain ⟨k, t, rfl, hk⟩ := blank_cases hc
    revert hk
    cases k <;> simp [solid, tokType]
  · cases c <;> rfl

omit hs hs' in
theorem extractType_strip (k : Kind) (cs : List Green) : extractType (.node k (stripL cs)) = extractType (.node k cs) := by
  unfold extractType
  rw [greenType_strip]
  split
  · rfl
  · refine findSome_strip (fun c hc => ?_) (fun c => ?_) cs
    · obtain ⟨k, t, rfl, _⟩ := blank_cases hc
      rfl
    · cases c with
      | tok k t => rfl
      | node k cs =>
        rw [strip]
        by_cases hk : k = .VAL_TYPE
        · subst hk; exact greenType_strip _ cs
        · split
          · rename_i h; cases h; exact absurd rfl hk
          · split
            · rename_i h; cases h; exact absurd rfl hk
            · rfl

omit hs hs' in
theorem Rel.extractType (h : Rel g g' x x') : extractType x.green = extractType x'.green := by
  show Verif.extractType (.node x.kind x.self.cs) = Verif.extractType (.node x'.kind x'.self.cs)
  rw [← extractType_strip, ← extractType_strip x'.kind, h.kind, h.cs]

theorem Rel.extractGlobalType (h : Rel g g' x x') : extractGlobalType x.green = extractGlobalType x'.green := by
  unfold Verif.extractGlobalType
  rw [find_green, find_green]
  have := h.childOf hs hs' .GLOBAL_TYPE
  revert this
  generalize x.childOf .GLOBAL_TYPE = a, x'.childOf .GLOBAL_TYPE = b
  rintro (_ | h2)
  · rfl
  · exact h2.extractType

omit hs hs' in
theorem any_strip {f : Green → Bool} (hb : ∀ c, isBlank c = true → f c = false) (hn : ∀ c, f (strip c) = f c) :
    ∀ cs : List Green, (stripL cs).any f = cs.any f
  | [] => rfl
  | c :: cs => by
    rw [stripL, List.any_cons]
    split
    · rename_i h
      rw [hb c h, any_strip hb hn cs, Bool.false_or]
    · rw [List.any_cons, hn, any_strip hb hn cs]

omit hs hs' in
theorem Rel.hasInline (h : Rel g g' x x') : hasInline x.green = hasInline x'.green := by
  have key : ∀ cs, (stripL cs).any (fun c => c.kind == .PARAM || c.kind == .RESULT) =
      cs.any (fun c : Green => c.kind == .PARAM || c.kind == .RESULT) := by
    refine any_strip (fun c hc => ?_) (fun c => ?_)
    · obtain ⟨k, t, rfl, hk⟩ := blank_cases hc
      revert hk
      cases k <;> simp [solid, Green.kind]
    · cases c <;> rfl
  show x.self.cs.any _ = x'.self.cs.any _
  rw [← key x.self.cs, ← key x'.self.cs, h.cs]

/-- The signature of a function is the same. -/
theorem SymRel.getFuncSig {s s' : Sym} (h : SymRel g g' s s') :
    getFuncSig (symbolTable (Red.root g)) (Red.root g) s = getFuncSig (symbolTable (Red.root g')) (Red.root g') s' := by
  obtain ⟨d, d', h1, h2, h3⟩ := h
  have n1 : s.key.toNode (Red.root g) = some d := by
    rw [(h1.inTree hs).2.1, (h1.inTree hs).1.toNode hs (h1.nonempty hs)]
  have n2 : s'.key.toNode (Red.root g') = some d' := by
    rw [(h2.inTree hs').2.1, (h2.inTree hs').1.toNode hs' (h2.nonempty hs')]
  unfold Verif.getFuncSig
  rw [(h1.inTree hs).2.2, (h2.inTree hs').2.2, find_green, find_green, n1, n2]
  have ob : ∀ {α β : Type} (n : α) (f : α → Ans β), (Ans.ofOption (some n)).bind f = f n := fun _ _ => rfl
  rw [ob, ob]
  have hu := h3.childOf hs hs' .TYPE_USE
  have hi : Opt2 (Rel g g') ((d.childOf .TYPE_USE).bind fun u => u.childOf .INDEX) ((d'.childOf .TYPE_USE).bind fun u => u.childOf .INDEX) :=
    hu.bind fun a b hab => hab.childOf hs hs' .INDEX
  revert hu hi
  generalize ((d.childOf .TYPE_USE).bind fun u => u.childOf .INDEX) = i1, ((d'.childOf .TYPE_USE).bind fun u => u.childOf .INDEX) = i2
  generalize d.childOf .TYPE_USE = a, d'.childOf .TYPE_USE = b
  rintro (_ | h4) hi
  · rfl
  · simp only [Option.map_some]
    rw [h4.hasInline, h4.extractSig hs hs']
    split
    · rfl
    · cases hi with
      | none => rfl
      | some h5 =>
        rename_i i1 i2
        have h6 := h5.firstDef hs hs'
        unfold SymbolTable.firstDef at h6
        simp only []
        revert h6
        generalize ((symbolTable (Red.root g)).findDefs i1.key).bind List.head? = u, ((symbolTable (Red.root g')).findDefs i2.key).bind List.head? = v
        rintro (_ | ⟨e, e', k1, k2, k3⟩)
        · rfl
        · rename_i s1 s2
          have h7 := k3.childOf hs hs' .FUNC_TYPE
          simp only [Option.bind_some, funcTypeOf]
          rw [(k1.inTree hs).2.2, (k2.inTree hs').2.2, find_green, find_green]
          revert h7
          generalize e.childOf .FUNC_TYPE = u, e'.childOf .FUNC_TYPE = v
          rintro (_ | h7)
          · rfl
          · simp only [Option.map_some]
            rw [h7.extractSig hs hs']

/-- What an instruction leaves on the stack is the same. -/
theorem Rel.resolveType (h : Rel g g' x x') :
    resolveType (symbolTable (Red.root g)) (Red.root g) x = resolveType (symbolTable (Red.root g')) (Red.root g') x' := by
  have ho : Opt2 (Rel g g') x.firstOperand x'.firstOperand := (h.childrenOf hs hs' .OPERAND).head
  have hf : Opt2 (SymRel g g') (x.firstOperand.bind (symbolTable (Red.root g)).firstDef)
      (x'.firstOperand.bind (symbolTable (Red.root g')).firstDef) := ho.bind fun a b hab => hab.firstDef hs hs'
  have hl : Opt2 (SymRel g g') (x.firstOperand.bind fun i => (symbolTable (Red.root g)).findParamOrLocalDef i.key)
      (x'.firstOperand.bind fun i => (symbolTable (Red.root g')).findParamOrLocalDef i.key) := ho.bind fun a b hab => hab.findLocal hs hs'
  unfold Verif.resolveType
  rw [h.kind, h.instrName hs hs']
  split
  · split
    · rfl
    · split
      · revert hf
        generalize x.firstOperand.bind (symbolTable (Red.root g)).firstDef = u, x'.firstOperand.bind (symbolTable (Red.root g')).firstDef = v
        rintro (_ | hf)
        · rfl
        · simp only [hf.getFuncSig hs hs']
      · split
        · revert hl
          generalize (x.firstOperand.bind fun i => (symbolTable (Red.root g)).findParamOrLocalDef i.key) = u,
            (x'.firstOperand.bind fun i => (symbolTable (Red.root g')).findParamOrLocalDef i.key) = v
          rintro (_ | ⟨d, d', k1, k2, k3⟩)
          · rfl
          · simp only [Option.bind_some]
            rw [(k1.inTree hs).2.2, (k2.inTree hs').2.2, k3.extractType]
        · split
          · revert hf
            generalize x.firstOperand.bind (symbolTable (Red.root g)).firstDef = u, x'.firstOperand.bind (symbolTable (Red.root g')).firstDef = v
            rintro (_ | ⟨d, d', k1, k2, k3⟩)
            · rfl
            · simp only [Option.bind_some]
              rw [(k1.inTree hs).2.2, (k2.inTree hs').2.2, k3.extractGlobalType hs hs']
          · rfl
  · rfl

omit hs hs' in
theorem All2.of_length {α β : Type} : ∀ {l : List α} {l' : List β}, l.length = l'.length → All2 (fun _ _ => True) l l'
  | [], [], _ => .nil
  | [], _ :: _, h => by cases h
  | _ :: _, [], h => by cases h
  | _ :: l, _ :: l', h => .cons trivial (All2.of_length (by simpa using h))

omit hs hs' in
theorem All2.and_mem {α β : Type} {R : α → β → Prop} : ∀ {l : List α} {l' : List β}, All2 R l l' →
    All2 (fun a b => R a b ∧ a ∈ l) l l'
  | _, _, .nil => .nil
  | a :: l, b :: l', .cons h t => .cons ⟨h, .head _⟩ (by
    have := (All2.and_mem t).map (f := id) (f' := id) (S := fun x y => R x y ∧ x ∈ a :: l) fun x y h => ⟨h.1, .tail _ h.2⟩
    simpa using this)

/-- Corresponding nodes that begin with a token. -/
structure Firm (g g' : Green) (x x' : Red) : Prop where
  rel : Rel g g' x x'
  rank : rank x.kind = 0
  nonempty : mayBeEmpty x.kind = false

theorem slots_firm {x x' : Red} (h : Rel g g' x x') (hk : x.kind = .LOCAL ∨ x.kind = .PARAM) : All2 (Firm g g') (Spec.slots x) (Spec.slots x') := by
  unfold Spec.slots
  rw [h.nameOf hs hs']
  split
  · exact .cons ⟨h, by rcases hk with hk | hk <;> rw [hk] <;> rfl, by rcases hk with hk | hk <;> rw [hk] <;> rfl⟩ .nil
  · have := (h.childrenOf hs hs' .VAL_TYPE).and_mem.map (f := id) (f' := id) (S := Firm g g') fun a b hab => by
      have hk := (mem_childrenOf.mp hab.2).2
      exact ⟨hab.1, by rw [id, hk]; rfl, by rw [id, hk]; rfl⟩
    rw [List.map_id, List.map_id] at this
    exact this

theorem localNodes_firm {x x' : Red} (h : Rel g g' x x') : All2 (Firm g g') (Spec.localNodes x) (Spec.localNodes x') := by
  unfold Spec.localNodes
  refine ((h.childrenOf hs hs' .LOCAL).and_mem).flatMap fun a b hab => slots_firm hs hs' hab.1 (.inl (mem_childrenOf.mp hab.2).2)

theorem paramNodes_firm {x x' : Red} (h : Rel g g' x x') : All2 (Firm g g') (Spec.paramNodes x) (Spec.paramNodes x') := by
  unfold Spec.paramNodes
  exact ((h.childrenOf hs hs' .TYPE_USE).take 1).flatMap fun a b hab =>
    ((hab.childrenOf hs hs' .PARAM).and_mem).flatMap fun a b hab => slots_firm hs hs' hab.1 (.inr (mem_childrenOf.mp hab.2).2)

omit hs hs' in
theorem Opt2.toList {α β : Type} {R : α → β → Prop} {a : Option α} {b : Option β} (h : Opt2 R a b) : All2 R a.toList b.toList := by
  cases h with
  | none => exact .nil
  | some h => exact .cons h .nil

/-- The places of corresponding nodes. -/
def NodePlace (g g' : Green) (p q : Nat × Nat) : Prop :=
  ∃ n n', Firm g g' n n' ∧ p = (n.start, n.stop) ∧ q = (n'.start, n'.stop)

theorem localSlots_firm (h : Rel g g' x x') : All2 (Firm g g') (Spec.localSlots x) (Spec.localSlots x') := by
  have e : ∀ f, Spec.localSlots f = Spec.paramNodes f ++ Spec.localNodes f := by
    intro f
    rw [localSlots_eq]
    unfold paramGroups Spec.paramNodes Spec.localNodes
    rw [List.flatMap_assoc]
    rfl
  rw [e, e]
  exact (paramNodes_firm hs hs' h).append (localNodes_firm hs hs' h)

/-- The same parameters are declared. -/
theorem SymRel.paramRanges {d d' : Red} (h : Rel g g' d d') (he : mayBeEmpty d.kind = false) :
    All2 (NodePlace g g') (paramRanges (symbolTable (Red.root g)) d) (paramRanges (symbolTable (Red.root g')) d') := by
  by_cases hk : d.kind = .MODULE_FIELD_FUNC
  · unfold Verif.paramRanges
    rw [declared_eq hs h.left hk, declared_eq hs' h.right (h.kind ▸ hk), funcLocals_eq hs h.left, funcLocals_eq hs' h.right,
      paramCount_eq, paramCount_eq, (paramNodes_firm hs hs' h).length]
    refine All2.map (R := fun s s' : Sym => s.kind = s'.kind ∧ NodePlace g g' (s.key.start, s.key.stop) (s'.key.start, s'.key.stop))
      (fun a b hab => hab.2) (All2.filter (fun a b hab => by rw [hab.1]) (All2.map (fun a b hab => ⟨?_, ?_⟩)
        ((localSlots_firm hs hs' h).zipIdx 0)))
    · simp only [hab.2]
    · exact ⟨a.1, b.1, hab.1, rfl, rfl⟩
  · have none : ∀ {g : Green} {d : Red}, Solid g → InTree g d → mayBeEmpty d.kind = false → d.kind ≠ .MODULE_FIELD_FUNC →
        Verif.paramRanges (symbolTable (Red.root g)) d = [] := by
      intro g d hs hd he hk
      unfold Verif.paramRanges
      rw [List.map_eq_nil_iff, List.filter_eq_nil_iff]
      intro s hsm hp
      obtain ⟨h1, h2⟩ := List.mem_filter.mp hsm
      simp only [Bool.and_eq_true, beq_iff_eq] at h2 hp
      obtain ⟨x, hx⟩ := (mem_symbols_iff hs).mp h1
      cases hx with
      | module => cases hp
      | @field _ _ _ sp => cases sp <;> cases hp
      | slot h3 h4 h5 =>
        have := InTree.key_inj hs h3 hd h2.2 he
        exact hk (this ▸ h4)
      | @ref _ _ sp => cases sp <;> cases hp
      | block => cases hp
    rw [none hs h.left he hk, none hs' h.right (h.kind ▸ he) (h.kind ▸ hk)]
    exact .nil

/-- The same type expected, by a parameter at the same place. -/
def ExpRel (g g' : Green) (p q : Expected) : Prop := p.1 = q.1 ∧ All2 (NodePlace g g') p.2.toList q.2.toList


/-- What an instruction takes from the stack is the same. -/
theorem Rel.expectedTypes (h : Rel g g' x x') :
    Ans2 (Opt2 (All2 (ExpRel g g'))) (expectedTypes (symbolTable (Red.root g)) (Red.root g) x)
      (expectedTypes (symbolTable (Red.root g')) (Red.root g') x') := by
  have ho : Opt2 (Rel g g') x.firstOperand x'.firstOperand := (h.childrenOf hs hs' .OPERAND).head
  have hf : Opt2 (SymRel g g') (x.firstOperand.bind (symbolTable (Red.root g)).firstDef)
      (x'.firstOperand.bind (symbolTable (Red.root g')).firstDef) := ho.bind fun a b hab => hab.firstDef hs hs'
  unfold Verif.expectedTypes
  rw [h.instrName hs hs']
  split
  · exact .done .none
  · split
    · revert hf
      generalize x.firstOperand.bind (symbolTable (Red.root g)).firstDef = u, x'.firstOperand.bind (symbolTable (Red.root g')).firstDef = v
      rintro (_ | hf)
      · exact .done .none
      · have hg := hf.getFuncSig hs hs'
        obtain ⟨d, d', h1, h2, h3⟩ := hf
        have ob : ∀ {α β : Type} (n : α) (f : α → Ans β), (Ans.ofOption (some n)).bind f = f n := fun _ _ => rfl
        simp only []
        rw [(h1.inTree hs).2.1, (h1.inTree hs).1.toNode hs (h1.nonempty hs), (h2.inTree hs').2.1,
          (h2.inTree hs').1.toNode hs' (h2.nonempty hs'), ob, ob, hg]
        refine (Ans2.refl _).bind fun a b hab => ?_
        subst hab
        refine .done ?_
        cases a with
        | none => exact .none
        | some sig =>
          refine .some ?_
          have := (All2.refl (R := fun a b : OpType => a = b) (fun _ => rfl) (sig.params.map fun p => OpType.val p.1)).zip
            ((SymRel.paramRanges hs hs' h3 (h1.nonempty hs)).map (f := some) (f' := some) (S := Opt2 (NodePlace g g')) fun a b h => .some h)
          have := this.map (S := ExpRel g g') (f := id) (f' := id) fun a b h => ⟨h.1, by
            exact Opt2.toList h.2⟩
          simpa using this
    · refine .done ?_
      cases instrMeta _ with
      | none => exact .none
      | some m => exact .some ((All2.refl (R := fun a b : OpType => a = b) (fun _ => rfl) m.params).map fun a b h => ⟨h, .nil⟩)

/-- The nodes the type checks report at. -/
def Typed (x : Red) : Prop := x.kind = .PLAIN_INSTR ∨ x.kind = .OPERAND

/-- The same finding, at the same node. -/
def RawRel (g g' : Green) (r r' : RawDiag) : Prop :=
  r.msg = r'.msg ∧ ∃ n n', Rel g g' n n' ∧ Typed n ∧ r.start = n.start ∧ r.stop = n.stop ∧ r'.start = n'.start ∧ r'.stop = n'.stop ∧
    All2 (NodePlace g g') r.related r'.related

/-- The same type, received from the same node. -/
def GotRel (g g' : Green) (p q : OpType × Red) : Prop := p.1 = q.1 ∧ Rel g g' p.2 q.2 ∧ Typed p.2

omit hs hs' in
theorem rawRel_node (h : Rel g g' x x') (ht : Typed x) (m : DiagMsg) : RawRel g g' (nodeDiag x m) (nodeDiag x' m) :=
  ⟨rfl, x, x', h, ht, rfl, rfl, rfl, rfl, .nil⟩

omit hs hs' in
theorem mismatches_rel {ps qs : List Expected} (hp : All2 (ExpRel g g') ps qs) {l l' : List (OpType × Red)}
    (h : All2 (GotRel g g') l l') : All2 (RawRel g g') (mismatches ps l) (mismatches qs l') := by
  unfold mismatches
  refine (hp.zip h).filterMap fun a b hab => ?_
  obtain ⟨⟨e, rel⟩, ⟨r, n⟩⟩ := a
  obtain ⟨⟨e', rel'⟩, ⟨r', n'⟩⟩ := b
  obtain ⟨⟨h1, h5⟩, h2, h3, h4⟩ := hab
  simp only at h1 h2 h3 h4 h5
  subst h1 h2
  cases e <;> cases r <;> simp only []
  · split
    · exact .none
    · exact .some ⟨rfl, n, n', h3, h4, rfl, rfl, rfl, rfl, h5⟩
  all_goals exact .none

theorem Rel.operandInstr (h : Rel g g' x x') : Opt2 (Rel g g') x.operandInstr x'.operandInstr :=
  (h.children hs hs').find fun a b hab => by rw [hab.kind]

theorem Rel.operandTypes (h : Rel g g' x x') (ht : Typed x) (b : Bool) :
    Ans2 (fun p q => All2 (GotRel g g') p.1 q.1 ∧ All2 (RawRel g g') p.2 q.2)
      (operandTypes (symbolTable (Red.root g)) (Red.root g) b x) (operandTypes (symbolTable (Red.root g')) (Red.root g') b x') := by
  unfold Verif.operandTypes
  have := h.operandInstr hs hs'
  revert this
  generalize x.operandInstr = u, x'.operandInstr = v
  rintro (_ | hi)
  · refine .done ⟨.nil, ?_⟩
    simp only []
    split
    · exact .cons (rawRel_node h ht _) .nil
    · exact .nil
  · simp only []
    rw [hi.resolveType hs hs']
    refine (Ans2.refl _).bind fun a b hab => ?_
    subst hab
    cases a with
    | none => exact .done ⟨.nil, .nil⟩
    | some tys =>
      exact .done ⟨(All2.refl (R := fun a b : OpType => a = b) (fun _ => rfl) tys).map fun a b hab => ⟨hab, h, ht⟩, .nil⟩

theorem Rel.checkReceived (h : Rel g g' x x') (ht : Typed x) (skip : Nat) {ps qs : List Expected}
    (hp : All2 (ExpRel g g') ps qs) {l l' : List (OpType × Red)} (hl : All2 (GotRel g g') l l') :
    All2 (RawRel g g') (checkReceived x skip l ps) (checkReceived x' skip l' qs) := by
  unfold Verif.checkReceived
  simp only []
  rw [hp.length, hl.length, ((h.childrenOf hs hs' .OPERAND).filter (q := fun o => o.operandInstr.isNone)
    (p := fun o => o.operandInstr.isNone) fun a b hab => (hab.operandInstr hs hs').isNone).length]
  refine All2.append ?_ (mismatches_rel hp hl)
  split
  · exact .cons (rawRel_node h ht _) .nil
  · exact .nil

/-- The check of a folded instruction finds the same. -/
theorem Rel.checkFolded (h : Rel g g' x x') (hk : x.kind = .PLAIN_INSTR) : Ans2 (All2 (RawRel g g'))
    (checkFolded (symbolTable (Red.root g)) (Red.root g) x) (checkFolded (symbolTable (Red.root g')) (Red.root g') x') := by
  unfold Verif.checkFolded
  rw [h.instrName hs hs', (h.token hs hs' (k := .L_PAREN) rfl).isNone]
  split
  · exact .done .nil
  · split
    · exact .done .nil
    · have hc : All2 (fun a b => Rel g g' a b ∧ a.kind = .OPERAND) (x.childrenOf .OPERAND) (x'.childrenOf .OPERAND) := by
        have := (h.childrenOf hs hs' .OPERAND).and_mem.map (f := id) (f' := id) (S := fun a b => Rel g g' a b ∧ a.kind = .OPERAND)
          (fun a b hab => ⟨hab.1, (mem_childrenOf.mp hab.2).2⟩)
        simpa using this
      refine (Ans2.mapL (S := fun p q => All2 (GotRel g g') p.1 q.1 ∧ All2 (RawRel g g') p.2 q.2)
        (R := fun a b => Rel g g' a b ∧ a.kind = .OPERAND) (fun a b hab =>
        Rel.operandTypes hs hs' hab.1 (.inr hab.2) _) (hc.drop _)).bind fun ops ops' hops => ?_
      refine (h.expectedTypes hs hs').bind fun u v huv => ?_
      cases huv with
      | none => exact .done (hops.flatMap fun a b hab => hab.2)
      | some hp =>
        exact .done ((hops.flatMap fun a b hab => hab.2).append
          (h.checkReceived hs hs' (.inl hk) _ hp (hops.flatMap fun a b hab => hab.1)))

omit hs hs' in
theorem if_rel {α β : Type} {R : α → β → Prop} {p : Prop} [Decidable p] {a : α} {b : β} (h : R a b) :
    All2 R (if p then [a] else []) (if p then [b] else []) := by
  split
  · exact .cons h .nil
  · exact .nil

theorem Rel.stackStep (h : Rel g g' x x') (hk : x.kind = .PLAIN_INSTR) {l l' : List (OpType × Red)} (hl : All2 (GotRel g g') l l') :
    Ans2 (fun p q => All2 (GotRel g g') p.1 q.1 ∧ All2 (RawRel g g') p.2 q.2)
      (stackStep (symbolTable (Red.root g)) (Red.root g) x l) (stackStep (symbolTable (Red.root g')) (Red.root g') x' l') := by
  unfold Verif.stackStep
  refine (h.expectedTypes hs hs').bind fun u v huv => ?_
  cases huv with
  | none => exact .done ⟨hl, .nil⟩
  | some hp =>
    simp only []
    rw [h.resolveType hs hs', (h.token hs hs' (k := .L_PAREN) rfl).isSome, hp.length, hl.length]
    refine (Ans2.refl _).bind fun a b hab => ?_
    subst hab
    refine .done ⟨(hl.take _).append ((All2.refl (R := fun a b : OpType => a = b) (fun _ => rfl) _).map fun a b hab => ⟨hab, h, .inl hk⟩),
      All2.append ?_ (mismatches_rel hp (hl.drop _))⟩
    exact if_rel (rawRel_node h (.inl hk) _)

theorem stackRun_rel {ns ns' : List Red} (h : All2 (Rel g g') ns ns') : ∀ {l l' : List (OpType × Red)}, All2 (GotRel g g') l l' →
    Ans2 (All2 (RawRel g g')) (stackRun (symbolTable (Red.root g)) (Red.root g) ns l)
      (stackRun (symbolTable (Red.root g')) (Red.root g') ns' l') := by
  induction h with
  | nil => intro l l' _; exact .done .nil
  | cons h _ ih =>
    intro l l' hl
    rw [stackRun, stackRun, h.kind]
    split
    · rename_i hk
      refine (h.stackStep hs hs' (h.kind.trans (beq_iff_eq.mp hk)) hl).bind fun a b hab => ?_
      exact (ih hab.1).bind fun c d hcd => .done (hab.2.append hcd)
    · exact ih hl

/-- The check of a sequence of instructions finds the same. -/
theorem Rel.checkStacked (h : Rel g g' x x') : Ans2 (All2 (RawRel g g'))
    (checkStacked (symbolTable (Red.root g)) (Red.root g) x) (checkStacked (symbolTable (Red.root g')) (Red.root g') x') := by
  unfold Verif.checkStacked
  have hb : All2 (Rel g g') (x.children.filter fun c => isInstr c.kind) (x'.children.filter fun c => isInstr c.kind) :=
    (h.children hs hs').filter fun a b hab => by rw [hab.kind]
  simp only []
  rw [hb.all (q := fun c => (c.token .L_PAREN).isSome) fun a b hab => (hab.token hs hs' (k := .L_PAREN) rfl).isSome]
  split
  · exact .done .nil
  · exact stackRun_rel hs hs' hb .nil

end

theorem typed_inked {g : Green} (hs : Solid g) (hd : DerivedL g.children) {x : Red} (hx : InTree g x) (ht : Typed x) : Inked x := by
  rcases ht with h | h
  · exact inked hs hd hx (by rw [h]; rfl) (by rw [h]; rfl)
  · exact operand_inked hs hd hx h

end Stripped
end Verif
