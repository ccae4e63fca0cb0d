import Verif.Lemmas.SameOutline
/-!
The symbol tables of documents that differ in white space and comments only.
-/
namespace Verif
namespace Stripped
open Spec

variable {g g' : Green} {x x' : Red}

/-- The node has a token that is neither white space nor a comment: an index, or its first one. -/
def Marked (x : Red) : Prop := (indexOf x).isSome ∨ (rank x.kind = 0 ∧ mayBeEmpty x.kind = false)

/-- The same symbol: recorded for corresponding nodes in corresponding regions. -/
def SymIso (g g' : Green) (s s' : Sym) : Prop :=
  ∃ x x' r r' k i, Rel g g' x x' ∧ Marked x' ∧ Rel g g' r r' ∧ s = ⟨x.key, x.green, r.key, k, i⟩ ∧ s' = ⟨x'.key, x'.green, r'.key, k, i⟩

theorem Rel.parent (h : Rel g g' x x') : Opt2 (Rel g g') x.parent x'.parent := by
  have := congrArg Red.parent h.same
  rw [mv_parent, mv_parent] at this
  cases hp : x.parent with
  | none => rw [hp] at this; cases hp' : x'.parent with
    | none => exact .none
    | some p' => rw [hp'] at this; cases this
  | some p => rw [hp] at this; cases hp' : x'.parent with
    | none => rw [hp'] at this; cases this
    | some p' => rw [hp'] at this; exact .some ⟨(h.left.parent hp).1, (h.right.parent hp').1, Option.some.inj this⟩

theorem Rel.ancestors (h : Rel g g' x x') : All2 (Rel g g') x.ancestors x'.ancestors := by
  have := congrArg Red.ancestors h.same
  rw [mv_ancestors, mv_ancestors] at this
  exact .of_map this fun a ha b hb e => ⟨h.left.ancestor ha, h.right.ancestor hb, e⟩

theorem Rel.enclosing (h : Rel g g' x x') (p : Kind → Bool) : Opt2 (Rel g g') (x.enclosing p) (x'.enclosing p) :=
  h.ancestors.find fun a b hab => by rw [hab.kind]

section
variable (hs : Solid g) (hs' : Solid g')
include hs hs'

theorem Rel.descendants (h : Rel g g' x x') : All2 (Rel g g') x.descendants x'.descendants := by
  have := congrArg Red.descendants h.same
  rw [mv_descendants hs h.left, mv_descendants hs' h.right] at this
  exact .of_map this fun a ha b hb e => ⟨h.left.descendant ha, h.right.descendant hb, e⟩

theorem Rel.indexOf (h : Rel g g' x x') : indexOf x = indexOf x' := by
  rw [← mv_indexOf hs h.left, ← mv_indexOf hs' h.right, h.same]

theorem refSymbol_iso (h : Rel g g' x x') {r r' : Red} (hr : Rel g g' r r') (k : SymKind) :
    Opt2 (SymIso g g') (refSymbol x r.key k) (refSymbol x' r'.key k) := by
  rw [refSymbol_eq, refSymbol_eq, h.indexOf hs hs']
  cases hi : Spec.indexOf x' with
  | none => exact .none
  | some i => exact .some ⟨x, x', r, r', k, i.toIdx, h, .inl (by rw [hi]; rfl), hr, rfl, rfl⟩

theorem parentSymbol_iso (h : Rel g g' x x') (hk : rank x.kind = 0 ∧ mayBeEmpty x.kind = false) (id : Nat) (k : SymKind) :
    Opt2 (SymIso g g') (parentSymbol x id k) (parentSymbol x' id k) := by
  unfold parentSymbol
  rw [h.identText hs hs']
  exact h.parent.map fun a b hab => ⟨x, x', a, b, k, _, h, .inr (h.kind ▸ hk), hab, rfl, rfl⟩

theorem importDescSymbol_iso (h : Rel g g' x x') (hk : rank x.kind = 0 ∧ mayBeEmpty x.kind = false) (id : Nat) (k : SymKind) :
    Opt2 (SymIso g g') (importDescSymbol x id k) (importDescSymbol x' id k) := by
  unfold importDescSymbol
  rw [h.identText hs hs']
  exact (h.parent.bind fun a b hab => hab.parent).map fun a b hab => ⟨x, x', a, b, k, _, h, .inr (h.kind ▸ hk), hab, rfl, rfl⟩

theorem indexRef_iso (h : Rel g g' x x') (k : SymKind) : Opt2 (SymIso g g') (indexRef x k) (indexRef x' k) := by
  unfold indexRef
  have h1 := h.enclosing isModule
  have h2 := h.childOf hs hs' .INDEX
  revert h1 h2
  generalize x.enclosing isModule = a, x'.enclosing isModule = b, x.childOf .INDEX = c, x'.childOf .INDEX = d
  rintro (_ | h1) (_ | h2)
  · exact .none
  · exact .none
  · exact .none
  · exact refSymbol_iso hs hs' h2 h1 k

theorem instrRefs_iso (h : Rel g g' x x') : All2 (SymIso g g') (instrRefs x) (instrRefs x') := by
  unfold instrRefs
  rw [h.instrName hs hs']
  split
  · exact .nil
  · rename_i kind scope all _
    have h1 := h.enclosing scope
    revert h1
    generalize x.enclosing scope = a, x'.enclosing scope = b
    rintro (_ | h1)
    · exact .nil
    · simp only []
      split
      · exact (h.children hs hs').filterMap (R := Rel g g') (f := fun c => refSymbol c _ kind) (f' := fun c => refSymbol c _ kind)
          fun a b hab => refSymbol_iso hs hs' hab h1 kind
      · exact ((h.children hs hs').head.bind fun a b hab => refSymbol_iso hs hs' hab h1 kind).toList

theorem paramCount_rel (h : Rel g g' x x') : paramCount x = paramCount x' := by
  rw [paramCount_eq, paramCount_eq, (paramNodes_firm hs hs' h).length]

theorem funcLocals_iso (h : Rel g g' x x') : All2 (SymIso g g') (funcLocals x) (funcLocals x') := by
  rw [funcLocals_eq hs h.left, funcLocals_eq hs' h.right]
  have hf := localSlots_firm hs hs' h
  refine (hf.zipIdx 0).map fun a b hab => ?_
  obtain ⟨h1, h2, h3⟩ := hab.1
  rw [paramCount_rel hs hs' h, hab.2, h1.nameOf hs hs']
  exact ⟨a.1, b.1, x, x', _, _, h1, .inr ⟨h1.kind ▸ h2, h1.kind ▸ h3⟩, h, rfl, rfl⟩

theorem symsOf_iso (h : Rel g g' x x') (id : Nat) : All2 (SymIso g g') (symsOf id x) (symsOf id x') := by
  unfold symsOf
  rw [← h.kind]
  have hmod : (rank x.kind = 0 ∧ mayBeEmpty x.kind = false) → All2 (SymIso g g') (x.parent.map fun p => (⟨x.key, x.green, p.key, .module, ⟨none, none⟩⟩ : Sym)).toList
      (x'.parent.map fun p => (⟨x'.key, x'.green, p.key, .module, ⟨none, none⟩⟩ : Sym)).toList :=
    fun hk => (h.parent.map fun a b hab => ⟨x, x', a, b, _, _, h, .inr (h.kind ▸ hk), hab, rfl, rfl⟩).toList
  have hblk := fun hk => (parentSymbol_iso hs hs' h hk 0 .blockDef).toList
  have hrest : All2 (SymIso g g')
      (match fieldKind x.kind with
        | some sk => (if isImportDesc x.kind then importDescSymbol x id sk else parentSymbol x id sk).toList ++
            (if x.kind == .MODULE_FIELD_FUNC then funcLocals x else [])
        | none => match indexKind x.kind with
          | some sk => (indexRef x sk).toList
          | none => [])
      (match fieldKind x.kind with
        | some sk => (if isImportDesc x.kind then importDescSymbol x' id sk else parentSymbol x' id sk).toList ++
            (if x.kind == .MODULE_FIELD_FUNC then funcLocals x' else [])
        | none => match indexKind x.kind with
          | some sk => (indexRef x' sk).toList
          | none => []) := by
    cases hf : fieldKind x.kind with
    | some sk =>
      have hk : rank x.kind = 0 ∧ mayBeEmpty x.kind = false := by
        revert hf; cases x.kind <;> simp [fieldKind, rank, mayBeEmpty]
      refine All2.append ?_ ?_
      · split
        · exact (importDescSymbol_iso hs hs' h hk id sk).toList
        · exact (parentSymbol_iso hs hs' h hk id sk).toList
      · split
        · exact funcLocals_iso hs hs' h
        · exact .nil
    | none =>
      cases indexKind x.kind with
      | some sk => exact (indexRef_iso hs hs' h sk).toList
      | none => exact .nil
  revert hrest hmod hblk
  generalize x.kind = k
  intro hmod hblk hrest
  cases k <;> first | exact hmod ⟨rfl, rfl⟩ | exact instrRefs_iso hs hs' h | exact hblk ⟨rfl, rfl⟩ | exact hrest

theorem symsFrom_iso {l l' : List Red} (h : All2 (Rel g g') l l') : ∀ id, All2 (SymIso g g') (symsFrom id l) (symsFrom id l') := by
  induction h with
  | nil => intro id; exact .nil
  | cons h _ ih =>
    intro id
    rw [symsFrom, symsFrom, h.kind]
    exact (symsOf_iso hs hs' h id).append (ih _)

/-- The tables have the same symbols in the same order. -/
theorem symbols_iso (he : strip g = strip g') :
    All2 (SymIso g g') (symbolTable (Red.root g)).symbols (symbolTable (Red.root g')).symbols := by
  rw [symbolTable_symbols, symbolTable_symbols]
  exact symsFrom_iso hs hs' ((root_rel hs hs' he).descendants hs hs') 0

end

end Stripped
end Verif
