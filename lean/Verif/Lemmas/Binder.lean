import Verif.Lemmas.Modules
import Verif.Spec.Scope
/-!
Helper lemmas: the symbol table as a list over the nodes of the tree.
-/
set_option linter.unusedSimpArgs false
namespace Verif
open Spec

/-- The symbols recorded for a node, given the running number. -/
def symsOf (id : Nat) (n : Red) : List Sym :=
  match n.kind with
  | .MODULE => (n.parent.map fun p => (⟨n.key, n.green, p.key, .module, ⟨none, none⟩⟩ : Sym)).toList
  | .PLAIN_INSTR => instrRefs n
  | .BLOCK_BLOCK | .BLOCK_IF | .BLOCK_LOOP => (parentSymbol n 0 .blockDef).toList
  | k =>
    match fieldKind k with
    | some sk =>
      (if isImportDesc k then importDescSymbol n id sk else parentSymbol n id sk).toList ++
            (if k == .MODULE_FIELD_FUNC then funcLocals n else [])
    | none =>
      match indexKind k with
      | some sk => (indexRef n sk).toList
      | none => []

/-- The running number after a node. -/
def nextId (id : Nat) (k : Kind) : Nat :=
  if k = .MODULE then 0 else if (fieldKind k).isSome then id + 1 else id

/-- The branch targets of a list of references, given the symbols so far. -/
def refEntries (syms : List Sym) : List Sym → List BlockEntry
  | [] => []
  | s :: ss =>
    (if s.kind == .blockRef then
        (blockChain (syms ++ [s]) (s.region.start + 1) s.region 0).map fun (k, i) => (⟨s.key, k, i⟩ : BlockEntry)
      else []) ++ refEntries (syms ++ [s]) ss

theorem pushRefs_eq (st : BindSt) (l : List Sym) :
    pushRefs st l = ⟨st.id, st.symbols ++ l, st.blocks ++ refEntries st.symbols l⟩ := by
  induction l generalizing st with
  | nil => simp [pushRefs, refEntries]
  | cons s l ih =>
    rw [pushRefs, ih, refEntries]
    cases hs : (s.kind == SymKind.blockRef) <;> simp

theorem bindNode_eq (st : BindSt) (n : Red) : bindNode st n =
    ⟨nextId st.id n.kind, st.symbols ++ symsOf st.id n,
      st.blocks ++ (if n.kind = .PLAIN_INSTR then refEntries st.symbols (instrRefs n) else [])⟩ := by
  unfold bindNode symsOf nextId
  cases n.kind <;> simp [pushRefs_eq, fieldKind, indexKind, isImportDesc]

/-- The symbols of a list of nodes. -/
def symsFrom (id : Nat) : List Red → List Sym
  | [] => []
  | n :: l => symsOf id n ++ symsFrom (nextId id n.kind) l

/-- The running number after a list of nodes. -/
def idAfter (id : Nat) : List Red → Nat
  | [] => id
  | n :: l => idAfter (nextId id n.kind) l

/-- The branch targets of a list of nodes. -/
def blocksFrom (id : Nat) (syms : List Sym) : List Red → List BlockEntry
  | [] => []
  | n :: l => (if n.kind = .PLAIN_INSTR then refEntries syms (instrRefs n) else []) ++
      blocksFrom (nextId id n.kind) (syms ++ symsOf id n) l

theorem foldl_bindNode (l : List Red) : ∀ st : BindSt, l.foldl bindNode st =
    ⟨idAfter st.id l, st.symbols ++ symsFrom st.id l, st.blocks ++ blocksFrom st.id st.symbols l⟩ := by
  induction l with
  | nil => intro st; simp [symsFrom, idAfter, blocksFrom]
  | cons n l ih =>
    intro st
    rw [List.foldl_cons, ih, bindNode_eq]
    simp [symsFrom, idAfter, blocksFrom]

theorem symbolTable_symbols (r : Red) : (symbolTable r).symbols = symsFrom 0 r.descendants := by
  unfold symbolTable; simp [foldl_bindNode]

theorem symbolTable_blocks (r : Red) : (symbolTable r).blocks = blocksFrom 0 [] r.descendants := by
  unfold symbolTable; simp [foldl_bindNode]

theorem symsFrom_append (a b : List Red) : ∀ id, symsFrom id (a ++ b) = symsFrom id a ++ symsFrom (idAfter id a) b := by
  induction a with
  | nil => intro id; simp [symsFrom, idAfter]
  | cons n a ih => intro id; simp [symsFrom, idAfter, ih]

theorem idAfter_append (a b : List Red) : ∀ id, idAfter id (a ++ b) = idAfter (idAfter id a) b := by
  induction a with
  | nil => intro id; simp [idAfter]
  | cons n a ih => intro id; simp [idAfter, ih]

theorem blocksFrom_append (a b : List Red) : ∀ id syms, blocksFrom id syms (a ++ b) =
    blocksFrom id syms a ++ blocksFrom (idAfter id a) (syms ++ symsFrom id a) b := by
  induction a with
  | nil => intro id syms; simp [blocksFrom, symsFrom, idAfter]
  | cons n a ih => intro id syms; simp [blocksFrom, symsFrom, idAfter, ih]

/-- A symbol comes from some node, with the running number of that node. -/
theorem mem_symsFrom {l : List Red} {s : Sym} : ∀ {id}, s ∈ symsFrom id l ↔
    ∃ a n b, l = a ++ n :: b ∧ s ∈ symsOf (idAfter id a) n := by
  induction l with
  | nil => intro id; simp [symsFrom]
  | cons n l ih =>
    intro id
    rw [symsFrom, List.mem_append, ih]
    constructor
    · rintro (h | ⟨a, m, b, rfl, h⟩)
      · exact ⟨[], n, l, rfl, h⟩
      · exact ⟨n :: a, m, b, rfl, h⟩
    · rintro ⟨a, m, b, h1, h2⟩
      cases a with
      | nil =>
        simp only [List.nil_append, List.cons.injEq] at h1
        obtain ⟨rfl, rfl⟩ := h1
        exact .inl h2
      | cons x a =>
        simp only [List.cons_append, List.cons.injEq] at h1
        obtain ⟨rfl, rfl⟩ := h1
        exact .inr ⟨a, m, b, rfl, h2⟩

/-! ### The running number -/

theorem fieldKind_space (k : Kind) : (fieldKind k).isSome = (fieldSpace k).isSome := by cases k <;> rfl

theorem idAfter_noModule {l : List Red} (h : ∀ x ∈ l, x.kind ≠ .MODULE) : ∀ id,
    idAfter id l = id + (l.filter fun n => (fieldSpace n.kind).isSome).length := by
  induction l with
  | nil => intro id; simp [idAfter]
  | cons n l ih =>
    intro id
    rw [idAfter, ih (fun x hx => h x (List.mem_cons_of_mem _ hx)), nextId,
      if_neg (h n (by simp)), fieldKind_space, List.filter_cons]
    split <;> simp <;> omega

/-- The symbols of the modules of a file, each numbered from zero. -/
theorem symbols_by_module {g : Green} (hs : Solid g) :
    symsFrom 0 (Red.root g).descendants = (Red.root g).children.flatMap fun m => symsFrom 0 m.descendants := by
  rw [Red.descendants_eq, symsFrom]
  have h1 : ∀ id, symsOf id (Red.root g) = [] := by
    intro id; unfold symsOf; rw [root_kind hs]; rfl
  rw [h1, List.nil_append]
  have H : ∀ (ms : List Red), (∀ m ∈ ms, m.kind = .MODULE) → ∀ id,
      symsFrom id (ms.flatMap Red.descendants) = ms.flatMap fun m => symsFrom 0 m.descendants := by
    intro ms
    induction ms with
    | nil => intro _ id; simp [symsFrom]
    | cons m ms ih =>
      intro hm id
      rw [List.flatMap_cons, symsFrom_append, ih (fun x hx => hm x (List.mem_cons_of_mem _ hx)), List.flatMap_cons]
      congr 1
      rw [Red.descendants_eq, symsFrom, symsFrom]
      have hk := hm m (by simp)
      have e1 : symsOf id m = symsOf 0 m := by unfold symsOf; rw [hk]
      have e2 : nextId id m.kind = nextId 0 m.kind := by unfold nextId; rw [hk]; rfl
      rw [e1, e2]
  exact H _ (fun m hm => root_children hs hm) _

/-- Every symbol comes from a node of one module, numbered by the entities of the module before it. -/
theorem mem_symbols {g : Green} (hs : Solid g) {s : Sym} : s ∈ (symbolTable (Red.root g)).symbols ↔
    ∃ m ∈ (Red.root g).children, ∃ a n b, m.descendants = a ++ n :: b ∧
      s ∈ symsOf (a.filter fun n => (fieldSpace n.kind).isSome).length n := by
  rw [symbolTable_symbols, symbols_by_module hs, List.mem_flatMap]
  constructor
  · rintro ⟨m, hm, h⟩
    obtain ⟨a, n, b, h1, h2⟩ := mem_symsFrom.mp h
    refine ⟨m, hm, a, n, b, h1, ?_⟩
    rw [Red.descendants_eq] at h1
    cases a with
    | nil => simpa [idAfter] using h2
    | cons x a =>
      simp only [List.cons_append, List.cons.injEq] at h1
      obtain ⟨rfl, h1⟩ := h1
      have hk := root_children hs hm
      have hno := no_module_below hs hm
      rw [h1] at hno
      rw [idAfter, nextId, if_pos hk, idAfter_noModule (fun x hx => hno x (by simp [hx]))] at h2
      rw [List.filter_cons, hk]
      simpa [fieldSpace] using h2
  · rintro ⟨m, hm, a, n, b, h1, h2⟩
    refine ⟨m, hm, mem_symsFrom.mpr ⟨a, n, b, h1, ?_⟩⟩
    rw [Red.descendants_eq] at h1
    cases a with
    | nil => simpa [idAfter] using h2
    | cons x a =>
      simp only [List.cons_append, List.cons.injEq] at h1
      obtain ⟨rfl, h1⟩ := h1
      have hk := root_children hs hm
      have hno := no_module_below hs hm
      rw [h1] at hno
      rw [idAfter, nextId, if_pos hk, idAfter_noModule (fun x hx => hno x (by simp [hx]))]
      rw [List.filter_cons, hk] at h2
      simpa [fieldSpace] using h2

end Verif
