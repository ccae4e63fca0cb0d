import Verif.Lemmas.DocNest
import Verif.Props.C02
/-!
C25: the document symbols are one entry for each module that declares something, with one entry below it for each
function, type, global, memory and table it declares or imports, in order, and below a function one entry for each local.
Names, kinds and ranges are those of the declarations.  Every selection range lies in the range of its entry, and the
children of an entry lie in its range one after the other.
-/
namespace Verif
open Spec

/-- C25, what is shown: an entry for every module that has fields, with the right entries below.  The order of the modules
is that of a hash map, hence "up to permutation". -/
theorem C25_exact (dbg : Bool) (src : Text) (g : Green) (errs : List Err) (dropped : Text)
    (h : parse dbg src = .tree g errs dropped) (ds : List DocSym) (hd : documentSymbols src (Red.root g) = .done ds) :
    ∃ ds', ds.Perm ds' ∧ Matched (ModuleEntry src) (shownModules g) ds' :=
  documentSymbols_entries (parse_solid h) hd

/-- C25, nesting. -/
theorem C25_nested (dbg : Bool) (src : Text) (g : Green) (errs : List Err) (dropped : Text)
    (h : parse dbg src = .tree g errs dropped) (ds : List DocSym) (hd : documentSymbols src (Red.root g) = .done ds) :
    (∀ d ∈ ds, WellNested d) ∧ ds.Pairwise fun a b => Before a.range b.range ∨ Before b.range a.range := by
  have hs := parse_solid h
  obtain ⟨ds', hp, hm⟩ := documentSymbols_entries hs hd
  constructor
  · intro d hd
    obtain ⟨m, hm', he⟩ := Matched.right hm d (hp.mem_iff.mp hd)
    exact moduleEntry_nested hs (List.mem_filter.mp hm').1 he
  · have h1 : ds'.Pairwise fun a b => Before a.range b.range ∨ Before b.range a.range := by
      refine Matched.pairwise hm ((Red.root g).children_order.filter _) ?_
      intro a a' b b' hb hb' hP
      exact .inl ((isRange_before hb.range hb'.range).mpr hP)
    exact hp.symm.pairwise h1 fun h => h.symm

/-- The request is answered, for sources without a bad quote or without errors (see `C01_kept_partial`). -/
theorem C25_answer (dbg : Bool) (src : Text) (g : Green) (errs : List Err) (dropped : Text)
    (h : parse dbg src = .tree g errs dropped) (hq : ¬ BadQuote src ∨ errs = []) : ∃ ds, documentSymbols src (Red.root g) = .done ds :=
  documentSymbols_ok (parse_solid h) (C01_kept_partial dbg src g errs dropped hq h)

/-- The outline as nested lists of names, for the examples. -/
inductive Names where
  | mk (name : Text) (below : List Names)
mutual
/-- Whether an entry has the given names. -/
def Names.of : Names → DocSym → Bool
  | .mk n ns, .mk n' _ _ _ cs => n == n' && Names.ofL ns cs
/-- Whether entries have the given names. -/
def Names.ofL : List Names → List DocSym → Bool
  | [], [] => true
  | n :: ns, c :: cs => Names.of n c && Names.ofL ns cs
  | _, _ => false
end

/-- Non-trivial case: a function with a parameter and two locals, an import, and a second module. -/
example : ∃ g e d ds, parse true t!"(module (func $f (param i32) (local $l i32) (local f64)) (import \"a\" \"b\" (memory 1))) (module (type (func)))" = .tree g e d ∧
    documentSymbols t!"(module (func $f (param i32) (local $l i32) (local f64)) (import \"a\" \"b\" (memory 1))) (module (type (func)))" (Red.root g) = .done ds ∧
    Names.ofL [.mk t!"module" [.mk t!"0" []], .mk t!"module" [.mk t!"$f" [.mk t!"$l" [], .mk t!"2" []], .mk t!"1" []]] ds = true ∧
    ds.Pairwise (fun a b => Before a.range b.range ∨ Before b.range a.range) := by
  have : (parse true t!"(module (func $f (param i32) (local $l i32) (local f64)) (import \"a\" \"b\" (memory 1))) (module (type (func)))").test (fun g _ _ =>
      match documentSymbols t!"(module (func $f (param i32) (local $l i32) (local f64)) (import \"a\" \"b\" (memory 1))) (module (type (func)))" (Red.root g) with
      | .done ds => Names.ofL [.mk t!"module" [.mk t!"0" []], .mk t!"module" [.mk t!"$f" [.mk t!"$l" [], .mk t!"2" []], .mk t!"1" []]] ds
      | .panic => false) = true := by decide +kernel
  obtain ⟨g, e, d, h1, h2⟩ := ParseOut.of_test this
  split at h2
  · rename_i ds hr
    exact ⟨g, e, d, ds, h1, hr, h2, (C25_nested _ _ _ _ _ h1 ds hr).2⟩
  · cases h2

/-- A module that declares nothing is not shown, so "every module is shown" is false. -/
theorem C25_module_missing : ∃ g e d, parse true t!"(module (start 0))" = .tree g e d ∧ (Red.root g).children.length = 1 ∧
    documentSymbols t!"(module (start 0))" (Red.root g) = .done [] := by
  have : (parse true t!"(module (start 0))").test (fun g _ _ => (Red.root g).children.length == 1 &&
      match documentSymbols t!"(module (start 0))" (Red.root g) with
      | .done [] => true
      | _ => false) = true := by decide +kernel
  obtain ⟨g, e, d, h1, h2⟩ := ParseOut.of_test this
  rw [Bool.and_eq_true, beq_iff_eq] at h2
  refine ⟨g, e, d, h1, h2.1, ?_⟩
  have h2 := h2.2
  split at h2
  · assumption
  · cases h2

end Verif
