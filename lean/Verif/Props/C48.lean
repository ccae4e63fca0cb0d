import Verif.Lemmas.Instrs
/-!
C48: what the server knows about an instruction - its opcode, shown on hover, and the types it takes and leaves, used by
the type checker - is what the standard says.
-/
namespace Verif
open Spec

/-- The entry found for a name is that of an instruction of the standard with this name. -/
theorem C48_sound (name : Text) (m : InstrMeta) (h : instrMeta name = some m) :
    ∃ e ∈ instrTable, e.name = name ∧ m.params = e.params ∧ m.results = e.results ∧ m.binOp = opcodeText e.opcode := by
  obtain ⟨_, e, he, h1, h2, h3, h4⟩ := instrMeta_sound h
  exact ⟨e, he, h1, h2.symm, h3.symm, h4.symm⟩

/-- Every instruction of the standard's list is found under its name, with its own types and opcode. `select` has two
opcodes; the one for `select` with types is found. -/
theorem C48_complete (e : Instr) (he : e ∈ instrTable) : ∃ m, instrMeta e.name = some m ∧
    m.params = e.params ∧ m.results = e.results ∧
    (m.binOp = opcodeText e.opcode ∨ e.name = t!"select" ∧ m.binOp = opcodeText [0x1C]) :=
  instrMeta_found he

/-- Instructions shown with the same opcode are the same instruction. -/
theorem C48_opcodes (name name' : Text) (m m' : InstrMeta) (h : instrMeta name = some m) (h' : instrMeta name' = some m')
    (he : m.binOp = m'.binOp) : name = name' := by
  have hn := (instrMeta_sound h).1
  have hn' := (instrMeta_sound h').1
  obtain ⟨i, hi⟩ := List.getElem?_of_mem (List.mem_reverse.mp (List.mem_of_find?_eq_some h))
  obtain ⟨j, hj⟩ := List.getElem?_of_mem (List.mem_reverse.mp (List.mem_of_find?_eq_some h'))
  have hp := InstrTable.increasing_pairwise InstrTable.opcodes_increase
  have g1 : (instrMetas.map fun m => InstrTable.code m.binOp)[i]? = some (InstrTable.code m.binOp) := by simp [hi]
  have g2 : (instrMetas.map fun m => InstrTable.code m.binOp)[j]? = some (InstrTable.code m.binOp) := by simp [hj, he]
  have key : ∀ {a b : Nat}, (instrMetas.map fun m => InstrTable.code m.binOp)[a]? = some (InstrTable.code m.binOp) →
      (instrMetas.map fun m => InstrTable.code m.binOp)[b]? = some (InstrTable.code m.binOp) → ¬ a < b := by
    intro a b ga gb hlt
    have := List.pairwise_iff_getElem.mp hp a b (List.getElem?_eq_some_iff.mp ga).1 (List.getElem?_eq_some_iff.mp gb).1 hlt
    rw [(List.getElem?_eq_some_iff.mp ga).2, (List.getElem?_eq_some_iff.mp gb).2] at this
    omega
  have : i = j := by have := key g1 g2; have := key g2 g1; omega
  subst this
  rw [hi] at hj
  cases hj
  rw [← hn, ← hn']

/-- Non-trivial case: a memory instruction, by its types and opcode, and its place in the standard's list. -/
example : ∃ m, instrMeta t!"i64.store32" = some m ∧ m.params = [.val .i32, .val .i64] ∧ m.results = [] ∧ m.binOp = t!"0x3E" := by
  have : (instrMeta t!"i64.store32").any (fun m => m.params == [.val .i32, .val .i64] && m.results == [] && m.binOp == t!"0x3E")
      = true := by decide +kernel
  cases h : instrMeta t!"i64.store32" with
  | none => rw [h] at this; simp at this
  | some m =>
    rw [h] at this
    simp only [Option.any_some, Bool.and_eq_true, beq_iff_eq] at this
    exact ⟨m, rfl, this.1.1, this.1.2, this.2⟩

/-- Non-trivial case: an instruction with a prefixed opcode whose number takes two bytes. -/
example : ∃ e ∈ instrTable, e.name = t!"i32x4.add" ∧ e.params = [.val .v128, .val .v128] ∧ opcodeText e.opcode = t!"0xFD 0xAE 0x01" := by
  decide +kernel

end Verif
