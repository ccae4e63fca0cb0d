import Verif.Lemmas.Names
/-!
Helper lemmas: no node has two entries in the symbol table.
-/
set_option linter.unusedSimpArgs false
namespace Verif
open Spec
variable {g : Green}

/-- The node while visiting which the symbol of `x` is recorded. -/
inductive Owns (n : Red) : Red → Prop where
  | self : symClass n.kind = some .module ∨ symClass n.kind = some .field ∨ symClass n.kind = some .block → Owns n n
  | ref {x : Red} : symClass x.kind = some .ref → x.parent = some n → Owns n x
  | slot {x : Red} : symClass x.kind = some .slot → x ∈ localSlots n → Owns n x

theorem slot_class {f x : Red} (hf : InTree g f) (h : x ∈ localSlots f) : symClass x.kind = some .slot := by
  obtain ⟨_, c, _, hc, hx⟩ := mem_localSlots hf h
  rcases hx with ⟨rfl, _⟩ | ⟨hk, _⟩
  · rcases hc with ⟨h, _⟩ | ⟨h, _⟩ <;> rw [h] <;> rfl
  · rw [hk]; rfl

theorem class_nonempty {k : Kind} {c : SymClass} (h : symClass k = some c) : mayBeEmpty k = false := by
  revert h; cases k <;> simp [symClass, mayBeEmpty, fieldSpace]

theorem Owns.unique (hs : Solid g) {n n' x : Red} (hn : InTree g n) (hn' : InTree g n') (h : Owns n x) (h' : Owns n' x) : n = n' := by
  cases h with
  | self c =>
    cases h' with
    | self _ => rfl
    | ref c' _ => rw [c'] at c; rcases c with c | c | c <;> cases c
    | slot c' _ => rw [c'] at c; rcases c with c | c | c <;> cases c
  | ref c hp =>
    cases h' with
    | self c' => rw [c] at c'; rcases c' with c | c | c <;> cases c
    | ref _ hp' => rw [hp] at hp'; exact Option.some.inj hp'
    | slot c' _ => rw [c] at c'; cases c'
  | slot c hx =>
    cases h' with
    | self c' => rw [c] at c'; rcases c' with c | c | c <;> cases c
    | ref c' _ => rw [c] at c'; cases c'
    | slot _ hx' => exact localSlots_func hs hn hn' hx hx'

theorem symsOf_owns (hs : Solid g) {n : Red} (hn : InTree g n) (id : Nat) {s : Sym} (h : s ∈ symsOf id n) :
    ∃ x, InTree g x ∧ s.key = x.key ∧ mayBeEmpty x.kind = false ∧ Owns n x := by
  have ref : ∀ {x sp}, x ∈ n.children → RefersTo x sp → s.key = x.key →
      ∃ x, InTree g x ∧ s.key = x.key ∧ mayBeEmpty x.kind = false ∧ Owns n x := by
    intro x sp h1 h2 h3
    have hx := hn.child h1
    have hc : symClass x.kind = some .ref := by rcases refersTo_kind hs hx h2 with h | h <;> rw [h] <;> rfl
    exact ⟨x, hx, h3, class_nonempty hc, .ref hc (Red.parent_of_child h1)⟩
  unfold symsOf at h
  split at h
  · rename_i hk
    rw [Option.mem_toList] at h
    obtain ⟨p, hp, rfl⟩ := Option.map_eq_some_iff.mp h
    exact ⟨n, hn, rfl, by rw [hk]; rfl, .self (.inl (by rw [hk]; rfl))⟩
  · rename_i hk
    obtain ⟨x, sp, r, i, h3, h4, h5, h6, rfl⟩ := (mem_instrRefs hs hn hk).mp h
    exact ref h3 h4 rfl
  all_goals try
    (rename_i hk
     rw [Option.mem_toList] at h
     obtain ⟨p, hp, rfl⟩ := Option.map_eq_some_iff.mp h
     exact ⟨n, hn, rfl, by rw [hk]; rfl, .self (.inr (.inr (by rw [hk]; rfl)))⟩)
  split at h
  · rename_i sk hf
    rw [fieldKind_eq] at hf
    obtain ⟨sp, hsp, rfl⟩ := Option.map_eq_some_iff.mp hf
    rcases List.mem_append.mp h with h | h
    · refine ⟨n, hn, ?_, class_nonempty (symClass_field hsp), .self (.inr (.inl (symClass_field hsp)))⟩
      rw [Option.mem_toList] at h
      split at h
      · obtain ⟨p, hp, rfl⟩ := Option.map_eq_some_iff.mp h; rfl
      · obtain ⟨p, hp, rfl⟩ := Option.map_eq_some_iff.mp h; rfl
    · split at h
      · obtain ⟨j, x, h3, rfl⟩ := (mem_funcLocals hs hn).mp h
        have h4 := List.mem_of_getElem? h3
        have hc := slot_class hn h4
        exact ⟨x, (mem_localSlots hn h4).1, rfl, class_nonempty hc, .slot hc h4⟩
      · cases h
  · split at h
    · rename_i sk hi
      rw [Option.mem_toList] at h
      obtain ⟨x, sp, r, i, h3, h4, h5, h6, rfl⟩ := (mem_indexRef hi).mp h
      exact ref h3 h4 rfl
    · cases h

theorem option_pairwise {R : α → α → Prop} (o : Option α) : o.toList.Pairwise R := by
  cases o <;> simp

theorem key_ne_of_order {a b : Red} (h : a.start < a.stop) (ho : a.stop ≤ b.start) : a.key ≠ b.key := by
  intro e
  simp only [Red.key, Key.mk.injEq] at e
  omega

theorem refSymbol_key {n : Red} {r : Key} {k : SymKind} {s : Sym} (h : refSymbol n r k = some s) : s.key = n.key := by
  rw [refSymbol_eq] at h
  obtain ⟨i, _, rfl⟩ := Option.map_eq_some_iff.mp h
  rfl

theorem instrRefs_distinct (hs : Solid g) {n : Red} (hn : InTree g n) (hk : n.kind = .PLAIN_INSTR) :
    (instrRefs n).Pairwise (fun s s' => s.key ≠ s'.key) := by
  unfold instrRefs
  split
  · simp
  · split
    · simp
    · split
      · rw [List.pairwise_filterMap]
        refine n.children_order.imp_of_mem ?_
        intro a b ha _ ho s h1 s' h2
        rw [refSymbol_key h1, refSymbol_key h2]
        exact key_ne_of_order ((hn.child ha).lt_stop hs (by rw [operand_kind hs hn hk ha]; rfl)) ho
      · exact option_pairwise _

theorem symsOf_distinct (hs : Solid g) {n : Red} (hn : InTree g n) (id : Nat) :
    (symsOf id n).Pairwise (fun s s' => s.key ≠ s'.key) := by
  unfold symsOf
  split
  · exact option_pairwise _
  · exact instrRefs_distinct hs hn ‹_›
  all_goals try exact option_pairwise _
  split
  · rw [List.pairwise_append]
    refine ⟨option_pairwise _, ?_, ?_⟩
    · split
      · rw [funcLocals_eq hs hn, List.pairwise_map]
        have h := localSlots_ne hs hn
        have h2 : (localSlots n).zipIdx.Pairwise (fun p q => p.1 ≠ q.1) := by
          rw [← List.pairwise_map (f := fun p : Red × Nat => p.1) (R := (· ≠ ·))]
          simpa using h
        refine h2.imp_of_mem ?_
        intro p q hp hq hne he
        have m1 := List.mem_of_getElem? (List.mem_zipIdx_iff_getElem?.mp hp)
        have m2 := List.mem_of_getElem? (List.mem_zipIdx_iff_getElem?.mp hq)
        exact hne (InTree.key_inj hs (mem_localSlots hn m1).1 (mem_localSlots hn m2).1 he
          (class_nonempty (slot_class hn m2)))
      · simp
    · intro s h1 s' h2 he
      split at h2
      · rename_i sk hsk hkk
        rw [beq_iff_eq] at hkk
        obtain ⟨j, x, h3, rfl⟩ := (mem_funcLocals hs hn).mp h2
        have h4 := List.mem_of_getElem? h3
        have hk : s.key = n.key := by
          rw [Option.mem_toList] at h1
          split at h1
          · obtain ⟨p, hp, rfl⟩ := Option.map_eq_some_iff.mp h1; rfl
          · obtain ⟨p, hp, rfl⟩ := Option.map_eq_some_iff.mp h1; rfl
        have hc := slot_class hn h4
        have : n.kind = x.kind := by
          have h5 : n.key = x.key := hk.symm.trans he
          simp only [Red.key, Key.mk.injEq] at h5
          exact h5.1
        rw [← this, hkk] at hc; cases hc
      · cases h2
  · split
    · exact option_pairwise _
    · simp

theorem symsFrom_distinct (hs : Solid g) : ∀ (l : List Red) (id : Nat), (∀ n ∈ l, InTree g n) → l.Pairwise PreRel →
    (symsFrom id l).Pairwise (fun s s' => s.key ≠ s'.key)
  | [], _, _, _ => by simp [symsFrom]
  | n :: l, id, hl, hp => by
    rw [List.pairwise_cons] at hp
    rw [symsFrom, List.pairwise_append]
    have hn := hl n (by simp)
    refine ⟨symsOf_distinct hs hn id, symsFrom_distinct hs l _ (fun m hm => hl m (List.mem_cons_of_mem _ hm)) hp.2, ?_⟩
    intro s h1 s' h2 he
    obtain ⟨a, m, b, h3, h4⟩ := mem_symsFrom.mp h2
    have hml : m ∈ l := by rw [h3]; simp
    have hm := hl m (List.mem_cons_of_mem _ hml)
    obtain ⟨x, hx, k1, e1, o1⟩ := symsOf_owns hs hn _ h1
    obtain ⟨y, hy, k2, e2, o2⟩ := symsOf_owns hs hm _ h4
    have : x = y := InTree.key_inj hs hx hy (by rw [← k1, ← k2, he]) e2
    subst this
    have hnm := Owns.unique hs hn hm o1 o2
    subst hnm
    rcases hp.1 n hml with h | h
    · exact StrictlyBelow.irrefl h
    · have h5 := n.start_le_stop
      -- an empty node owns nothing
      have : x ∈ n.descendants := by
        cases o1 with
        | self _ => exact n.mem_descendants_self
        | ref _ hp => exact (hn.mem_descendants hx).mpr (Red.parent_mem_ancestors hp)
        | slot _ hx' =>
          obtain ⟨_, c, _, hc, hx''⟩ := mem_localSlots hn hx'
          have hcn : n ∈ c.ancestors := by
            rcases hc with ⟨_, tu, h1, _, h2⟩ | ⟨_, h1⟩
            · exact Red.ancestors_trans (Red.parent_mem_ancestors h1) (Red.parent_mem_ancestors h2)
            · exact Red.parent_mem_ancestors h1
          refine (hn.mem_descendants hx).mpr ?_
          rcases hx'' with ⟨rfl, _⟩ | ⟨_, h1, _⟩
          · exact hcn
          · exact Red.ancestors_trans (Red.parent_mem_ancestors h1) hcn
      have w := Red.descendants_within this
      have := hx.lt_stop hs e1
      omega

/-- The symbols of a file have pairwise different nodes. -/
theorem symbols_distinct (hs : Solid g) : (symbolTable (Red.root g)).symbols.Pairwise (fun s s' => s.key ≠ s'.key) := by
  rw [symbolTable_symbols]
  exact symsFrom_distinct hs _ _ (fun n hn => hn) (Red.descendants_preorder _)

end Verif
