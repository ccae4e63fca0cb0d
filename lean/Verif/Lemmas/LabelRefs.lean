import Verif.Lemmas.Names
import Verif.Spec.Names
/-!
Helper lemmas: the references of labels.
-/
namespace Verif
open Spec

variable {g : Green}

/-- Nodes that refer to a label and whose scope is directly inside the blocks up to `d`. -/
def BranchIn (g : Green) (d x : Red) : Prop := ∃ r, IsBranch g x r ∧ d ∈ run r

/-- The symbols listed for the references of a block. -/
theorem mem_blockRefs (hs : Solid g) {d p : Red} (hd : InTree g d) (hl : isLabel d.kind = true) (hp : d.parent = some p)
    (incl : Bool) {s : Sym} {y : Red} (hy : IsSym g s y) :
    s ∈ (symbolTable (Red.root g)).blockRefs incl (blockSym d p) ↔ (incl = true ∧ y = d) ∨ BranchIn g d y := by
  have hsym : IsSym g (blockSym d p) d := .block hd hl hp
  unfold SymbolTable.blockRefs
  rw [List.mem_append, List.mem_filterMap]
  refine or_congr ?_ ?_
  · cases incl with
    | false => simp
    | true =>
      simp only [if_true, List.mem_singleton, true_and]
      constructor
      · rintro rfl; exact (hy.key_inj hs hsym rfl).1
      · rintro rfl; exact hy.det hs hsym
  · constructor
    · rintro ⟨b, hb, hby⟩
      rw [List.mem_filter, beq_iff_eq] at hb
      obtain ⟨hb, hk⟩ := hb
      obtain ⟨x, r, j, q, h1, h2, rfl⟩ := (mem_blocks hs).mp hb
      obtain ⟨i, hi⟩ := Option.isSome_iff_exists.mp h1.2.2.2
      have hR : IsRef g x r .label i := ⟨h1.1, h1.2.1, h1.2.2.1, hi⟩
      rw [hR.byKey hs] at hby
      cases hby
      obtain ⟨rfl, _⟩ := hR.isSym.key_inj hs hy rfl
      have hq := List.mem_of_getElem? h2
      obtain ⟨q1, q2, _⟩ := run_mem hs hR.scope_mem.2.1 hq
      have := InTree.key_inj hs q1 hd hk (label_nonempty hl)
      subst this
      exact ⟨r, h1, hq⟩
    · rintro ⟨r, h1, hq⟩
      obtain ⟨i, hi⟩ := Option.isSome_iff_exists.mp h1.2.2.2
      have hR : IsRef g y r .label i := ⟨h1.1, h1.2.1, h1.2.2.1, hi⟩
      obtain ⟨j, hj⟩ := List.getElem?_of_mem hq
      refine ⟨⟨y.key, d.key, ⟨some j, nameOf d⟩⟩, ?_, ?_⟩
      · rw [List.mem_filter]
        exact ⟨(mem_blocks hs).mpr ⟨y, r, j, d, h1, hj, rfl⟩, by simp [blockSym]⟩
      · show (symbolTable (Red.root g)).byKey y.key = some s
        rw [hR.byKey hs, hy.det hs hR.isSym]

/-- The references answered on a block. -/
theorem references_block (hs : Solid g) {d p : Red} (hd : InTree g d) (hl : isLabel d.kind = true) (hp : d.parent = some p)
    (incl : Bool) : (symbolTable (Red.root g)).references incl d.key =
      some ((symbolTable (Red.root g)).blockRefs incl (blockSym d p)) := by
  have hby : (symbolTable (Red.root g)).byKey d.key = some (blockSym d p) :=
    byKey_eq hs ((mem_symbols_iff hs).mpr ⟨d, .block hd hl hp⟩)
  unfold SymbolTable.references
  rw [hby]
  rfl

/-- The references answered on a branch operand. -/
theorem references_branch (hs : Solid g) {x r : Red} {i : Index} (h : IsRef g x r .label i)
    (incl : Bool) : (symbolTable (Red.root g)).references incl x.key =
      ((symbolTable (Red.root g)).findBlockDef x.key).map ((symbolTable (Red.root g)).blockRefs incl) := by
  unfold SymbolTable.references
  rw [h.byKey hs]
  rfl

/-- The places listed for the references of a block. -/
theorem blockRefs_located (hs : Solid g) {src : Text} {d p : Red} (hd : InTree g d) (hl : isLabel d.kind = true)
    (hp : d.parent = some p) (incl : Bool) {rng : Range} :
    (∃ s y, s ∈ (symbolTable (Red.root g)).blockRefs incl (blockSym d p) ∧ IsSym g s y ∧ IsRange src (nameRange y) rng) ↔
      (incl = true ∧ IsRange src (nameRange d) rng) ∨ ∃ x, BranchUnder g d x ∧ IsRange src (nameRange x) rng := by
  constructor
  · rintro ⟨s, y, h1, h2, h3⟩
    rcases (mem_blockRefs hs hd hl hp incl h2).mp h1 with ⟨h4, rfl⟩ | ⟨r, h4, h5⟩
    · exact .inl ⟨h4, h3⟩
    · exact .inr ⟨y, ⟨h4.1, h4.2.1, h4.2.2.2, r, h4.2.2.1, h5⟩, h3⟩
  · rintro (⟨h1, h2⟩ | ⟨y, ⟨h1, h2, h3, r, h4, h5⟩, h6⟩)
    · exact ⟨blockSym d p, d, (mem_blockRefs hs hd hl hp incl (.block hd hl hp)).mpr (.inl ⟨h1, rfl⟩), .block hd hl hp, h2⟩
    · obtain ⟨i, hi⟩ := Option.isSome_iff_exists.mp h3
      have hR : IsRef g y r .label i := ⟨h1, h2, h4, hi⟩
      exact ⟨_, y, (mem_blockRefs hs hd hl hp incl hR.isSym).mpr (.inr ⟨r, ⟨h1, h2, h4, h3⟩, h5⟩), hR.isSym, h6⟩

end Verif
