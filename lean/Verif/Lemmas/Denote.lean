import Verif.Lemmas.Resolve
/-!
Helper lemmas: what the code takes for the declarations an index denotes, against the specification.
-/
set_option linter.unusedSimpArgs false
namespace Verif
open Spec

variable {g : Green}

theorem find_num (l : List Red) (k : Nat) :
    (l.zipIdx.find? fun q => (Index.num k).toIdx.isDefinedBy ⟨some q.2, nameOf q.1⟩).map (·.1) = l[k]? := by
  have H : ∀ (l : List Red) (i : Nat), ((l.zipIdx i).find? fun q => k == q.2).map (·.1) = if i ≤ k then l[k - i]? else none := by
    intro l
    induction l with
    | nil => intro i; simp
    | cons a l ih =>
      intro i
      rw [List.zipIdx_cons, List.find?_cons]
      by_cases h : k = i
      · subst h; simp
      · have e : (k == (a, i).2) = false := by simpa using h
        rw [e]
        simp only
        rw [ih]
        by_cases h2 : i + 1 ≤ k
        · rw [if_pos h2, if_pos (by omega)]
          have : k - i = (k - (i + 1)) + 1 := by omega
          rw [this]; rfl
        · rw [if_neg h2, if_neg (by omega)]
  have := H l 0
  simp only [Nat.zero_le, if_true, Nat.sub_zero] at this
  rw [← this]
  rfl

theorem find_name (l : List Red) (n : Text) :
    (l.zipIdx.find? fun q => (Index.name n).toIdx.isDefinedBy ⟨some q.2, nameOf q.1⟩).map (·.1) =
      l.find? fun d => nameOf d == some n := by
  have H : ∀ (l : List Red) (i : Nat), ((l.zipIdx i).find? fun q => nameOf q.1 == some n).map (·.1) = l.find? fun d => nameOf d == some n := by
    intro l
    induction l with
    | nil => intro i; simp
    | cons a l ih =>
      intro i
      rw [List.zipIdx_cons, List.find?_cons, List.find?_cons]
      simp only
      split
      · rfl
      · exact ih _
  rw [← H l 0]
  congr 2
  funext q
  rw [Bool.eq_iff_iff, isDefinedBy_iff]
  simp [Matches]

/-! ### Module-level entities -/

theorem filter_filter_isSome (l : List Red) (sp : Space) :
    l.filter (fun n => fieldSpace n.kind == some sp) =
      (l.filter fun n => (fieldSpace n.kind).isSome).filter fun n => fieldSpace n.kind == some sp := by
  rw [List.filter_filter]
  congr 1
  funext n
  cases fieldSpace n.kind <;> simp

theorem indexSpace_eq (sp : Space) (m : Red) : indexSpace sp m = (fields m).filter fun n => fieldSpace n.kind == some sp :=
  filter_filter_isSome _ _

theorem filter_take_getElem? {p : α → Bool} {l : List α} {k : Nat} (h : ∀ a ∈ l.take (k + 1), p a = true) :
    (l.filter p)[k]? = l[k]? := by
  induction l generalizing k with
  | nil => rfl
  | cons a l ih =>
    have h1 := h a (by simp)
    rw [List.filter_cons_of_pos h1]
    cases k with
    | zero => rfl
    | succ k => exact ih (fun b hb => h b (by rw [List.take_succ_cons]; exact List.mem_cons_of_mem _ hb))

theorem codeDef_name {sp : Space} {r d : Red} {n : Text} (hm : isModuleSpace sp = true) :
    CodeDef sp r (.name n) d ↔ d ∈ indexSpace sp r ∧ nameOf d = some n := by
  have e : CodeDef sp r (.name n) d ↔ ∃ k : Nat, (fields r)[k]? = some d ∧ fieldSpace d.kind = some sp ∧ nameOf d = some n := by
    revert hm; cases sp <;> simp [isModuleSpace, CodeDef, Matches]
  rw [e, indexSpace_eq, List.mem_filter]
  simp only [beq_iff_eq, List.mem_iff_getElem?]
  constructor
  · rintro ⟨k, h1, h2, h3⟩; exact ⟨⟨⟨k, h1⟩, h2⟩, h3⟩
  · rintro ⟨⟨⟨k, h1⟩, h2⟩, h3⟩; exact ⟨k, h1, h2, h3⟩

theorem codeDef_num {sp : Space} {r d : Red} {k : Nat} (hm : isModuleSpace sp = true) :
    CodeDef sp r (.num k) d ↔ (fields r)[k]? = some d ∧ fieldSpace d.kind = some sp := by
  have e : CodeDef sp r (.num k) d ↔ ∃ k' : Nat, (fields r)[k']? = some d ∧ fieldSpace d.kind = some sp ∧ k = k' := by
    revert hm; cases sp <;> simp [isModuleSpace, CodeDef, Matches]
  rw [e]
  constructor
  · rintro ⟨_, h1, h2, rfl⟩; exact ⟨h1, h2⟩
  · rintro ⟨h1, h2⟩; exact ⟨_, h1, h2, rfl⟩

theorem declarations_module {sp : Space} {x r : Red} (hm : isModuleSpace sp = true) (h : scopeOf sp x = some r) :
    declarations sp x = indexSpace sp r := by
  unfold declarations
  revert hm h; cases sp <;> simp [isModuleSpace] <;> intro h <;> rw [h] <;> rfl

theorem declarations_local {x r : Red} (h : scopeOf .local x = some r) : declarations .local x = localSlots r := by
  unfold declarations; simp [h]

/-! ### Labels -/

theorem mem_labelsOf {l : List Red} {a : Red} (h : a ∈ labelsOf l) : isLabel a.kind = true ∧ a ∈ l := by
  induction l with
  | nil => cases h
  | cons c up ih =>
    cases up with
    | nil => cases h
    | cons b up =>
      rw [labelsOf] at h
      split at h
      · rename_i hc
        rw [Bool.and_eq_true] at hc
        rcases List.mem_cons.mp h with rfl | h
        · exact ⟨hc.1, by simp⟩
        · exact ⟨(ih h).1, List.mem_cons_of_mem _ (ih h).2⟩
      · exact ⟨(ih h).1, List.mem_cons_of_mem _ (ih h).2⟩

/-- Outside of the conditions of `if`s, the visible labels are the blocks around. -/
theorem labelsOf_filter : ∀ (fs : List Frame) (x : Red), (∀ c ∈ x.ancestors, ∀ a, c.parent = some a → inCondition c a = false) →
    x.up = fs → labelsOf x.ancestors = (redsOf fs).filter fun a => isLabel a.kind := by
  intro fs
  induction fs with
  | nil => intro x _ hu; unfold Red.ancestors; rw [hu]; rfl
  | cons f fs ih =>
    intro x hc hu
    unfold Red.ancestors
    rw [hu]
    have hp : x.parent = some ⟨f, fs⟩ := by unfold Red.parent; rw [hu]
    have h1 := hc x x.self_mem_ancestors _ hp
    have h2 := ih ⟨f, fs⟩ (fun c hcm => hc c (Red.ancestors_trans (Red.parent_mem_ancestors hp) hcm)) rfl
    have e : redsOf (x.self :: f :: fs) = ⟨x.self, f :: fs⟩ :: ⟨f, fs⟩ :: redsOf fs := rfl
    have e2 : (⟨x.self, f :: fs⟩ : Red) = x := by rw [← hu]
    rw [e, e2, labelsOf, h1]
    have e3 : (⟨f, fs⟩ : Red).ancestors = ⟨f, fs⟩ :: redsOf fs := rfl
    rw [e3] at h2
    rw [h2]
    have e4 : redsOf (f :: fs) = ⟨f, fs⟩ :: redsOf fs := rfl
    rw [e4, List.filter_cons]
    simp

theorem labelsOf_ancestors {x : Red} (hx : isLabel x.kind = false)
    (hc : ∀ c ∈ x.ancestors, ∀ a, c.parent = some a → inCondition c a = false) :
    labelsOf x.ancestors = x.ancestors.filter fun a => isLabel a.kind := by
  rw [labelsOf_filter _ x hc rfl]
  have e : x.ancestors = x :: redsOf x.up := rfl
  rw [e, List.filter_cons, hx]
  simp

theorem ancestors_find {p : Red → Bool} {r : Red} : ∀ (fs : List Frame), (redsOf fs).find? p = some r →
    ∃ l, redsOf fs = l ++ r.ancestors ∧ ∀ a ∈ l, p a = false := by
  intro fs
  induction fs with
  | nil => intro h; cases h
  | cons f fs ih =>
    intro h
    have e : redsOf (f :: fs) = ⟨f, fs⟩ :: redsOf fs := rfl
    rw [e, List.find?_cons] at h
    split at h
    · cases h; exact ⟨[], rfl, by simp⟩
    · rename_i hp
      obtain ⟨l, h1, h2⟩ := ih h
      refine ⟨⟨f, fs⟩ :: l, by rw [e, h1]; rfl, ?_⟩
      intro a ha
      rcases List.mem_cons.mp ha with rfl | ha
      · exact hp
      · exact h2 a ha

/-- The code looks at a prefix of the blocks around. -/
theorem run_prefix {x r : Red} (h : scopeOf .label x = some r) : run r <+: x.ancestors.filter fun a => isLabel a.kind := by
  obtain ⟨l, h1, h2⟩ := ancestors_find (p := fun a => scopeKind .label a.kind) (x.self :: x.up) h
  have e : x.ancestors = l ++ r.ancestors := h1
  rw [e, List.filter_append]
  have e2 : l.filter (fun a => isLabel a.kind) = [] := by
    rw [List.filter_eq_nil_iff]
    intro a ha
    have : isLabel a.kind = false := h2 a ha
    simp [this]
  rw [e2, List.nil_append]
  unfold run
  generalize r.ancestors = m
  induction m with
  | nil => simp
  | cons a m ih =>
    rw [List.takeWhile_cons]
    split
    · rename_i ha
      rw [List.filter_cons_of_pos (p := fun a : Red => isLabel a.kind) ha]
      exact (List.prefix_cons_inj a).mpr ih
    · exact List.nil_prefix

theorem prefix_getElem? {l m : List α} (h : l <+: m) {k : Nat} {a : α} (hk : l[k]? = some a) : m[k]? = some a := by
  obtain ⟨s, rfl⟩ := h
  rw [List.getElem?_append_left]
  · exact hk
  · exact (List.getElem?_eq_some_iff.mp hk).1

theorem prefix_find? {l m : List α} {p : α → Bool} (h : l <+: m) {a : α} (hk : l.find? p = some a) : m.find? p = some a := by
  obtain ⟨s, rfl⟩ := h
  rw [List.find?_append, hk]; rfl

theorem run_succ : ∀ (j : Nat) {r q : Red}, (run r)[j]? = some q → (run r)[j + 1]? = q.parent.filter fun a => isLabel a.kind := by
  intro j
  induction j with
  | zero =>
    intro r q h
    cases hl : isLabel r.kind with
    | false => rw [run_other hl] at h; cases h
    | true =>
      rw [run_label hl] at h ⊢
      cases h
      cases hp : r.parent with
      | none => rfl
      | some p =>
        simp only [List.getElem?_cons_succ]
        cases hpl : isLabel p.kind with
        | false => rw [run_other hpl]; simp [hpl, Option.filter]
        | true => rw [run_label hpl]; simp [hpl, Option.filter]
  | succ j ih =>
    intro r q h
    cases hl : isLabel r.kind with
    | false => rw [run_other hl] at h; cases h
    | true =>
      rw [run_label hl] at h ⊢
      cases hp : r.parent with
      | none => rw [hp] at h; cases h
      | some p => rw [hp] at h; exact ih h

/-- Where the blocks around are directly nested, the code sees all of them. -/
theorem run_direct {r : Red} {k : Nat} {L : List Red} (hL : ∀ a ∈ L, isLabel a.kind = true)
    (h0 : L[0]? = some r) (hn : ∀ j, j < k → L[j + 1]? = L[j]?.bind Red.parent) (hk : k < L.length) :
    ∀ j, j ≤ k → (run r)[j]? = L[j]? := by
  intro j
  induction j with
  | zero =>
    intro _
    have : isLabel r.kind = true := hL r (List.mem_of_getElem? h0)
    rw [run_label this, h0]; rfl
  | succ j ih =>
    intro hj
    have h1 := ih (by omega)
    have h2 : ∃ q, L[j]? = some q := ⟨L[j]'(by omega), List.getElem?_eq_getElem (by omega)⟩
    obtain ⟨q, hq⟩ := h2
    rw [hq] at h1
    rw [run_succ j h1, hn j (by omega), hq, Option.bind_some]
    have h3 : ∃ q, L[j + 1]? = some q := ⟨L[j + 1]'(by omega), List.getElem?_eq_getElem (by omega)⟩
    obtain ⟨p, hp⟩ := h3
    have h4 := hn j (by omega)
    rw [hp, hq, Option.bind_some] at h4
    rw [← h4]
    have := hL p (List.mem_of_getElem? hp)
    simp [this, Option.filter]

/-- The ancestors of a node are distinct. -/
theorem ancestors_ne : ∀ (fs : List Frame), (redsOf fs).Pairwise (· ≠ ·)
  | [] => by simp [redsOf]
  | f :: fs => by
    rw [redsOf, List.pairwise_cons]
    refine ⟨?_, ancestors_ne fs⟩
    intro a ha he
    subst he
    obtain ⟨m, hm⟩ := mem_redsOf.mp ha
    have := congrArg List.length hm
    simp at this
    omega

theorem labelsOf_sublist : ∀ (l : List Red), (labelsOf l).Sublist l
  | [] => by simp [labelsOf]
  | [_] => by simp [labelsOf]
  | c :: a :: up => by
    rw [labelsOf]
    have ih := labelsOf_sublist (a :: up)
    split
    · have : (a :: labelsOf (a :: up)).Sublist (c :: a :: up) → True := fun _ => trivial
      cases up with
      | nil => simp [labelsOf]
      | cons b up =>
        have h2 : (labelsOf (a :: b :: up)).Sublist (b :: up) := labelsOf_tail a (b :: up)
        exact (List.Sublist.cons_cons a h2).cons c
    · exact ih.cons c
where
  labelsOf_tail : ∀ (c : Red) (l : List Red), (labelsOf (c :: l)).Sublist l
    | _, [] => by simp [labelsOf]
    | c, a :: up => by
      rw [labelsOf]
      have ih := labelsOf_tail a up
      split
      · exact List.Sublist.cons_cons a ih
      · exact ih.cons a

theorem labels_ne (x : Red) : (declarations .label x).Pairwise (· ≠ ·) :=
  (ancestors_ne _).sublist (labelsOf_sublist _)

end Verif
