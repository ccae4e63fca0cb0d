import Verif.Lemmas.Schema
/-!
C43: every syntax tree, whatever the source, conforms to the tree schema `Spec.allowed`.
-/
namespace Verif
open Spec

/-- Every node of every tree, at any depth and on every recovery path, has only children of the kinds allowed below
it, starts with a token or with a node of smaller rank, and is not empty unless it is the file or a `then` part. -/
theorem C43_schema (dbg : Bool) (src : Text) (t : Green) (errs : List Err) (dropped : Text)
    (h : parse dbg src = .tree t errs dropped) : t.kind = .ROOT ∧ Shaped t :=
  ⟨(parse_shaped h).2, (parse_shaped h).1⟩

mutual
theorem shaped_nodes {t : Green} (h : Shaped t) : ∀ n ∈ t.nodes, NodeOk n.1 n.2 := by
  cases t with
  | tok k t => simp [Green.nodes]
  | node k cs =>
    intro n hn
    rw [Green.nodes] at hn
    rcases List.mem_cons.mp hn with rfl | hn
    · exact h.1
    · exact shapedL_nodes h.2 n hn
theorem shapedL_nodes {ts : List Green} (h : ShapedL ts) : ∀ n ∈ Green.nodesL ts, NodeOk n.1 n.2 := by
  cases ts with
  | nil => simp [Green.nodesL]
  | cons t ts =>
    intro n hn
    rw [Green.nodesL] at hn
    rcases List.mem_append.mp hn with hn | hn
    · exact shaped_nodes h.1 n hn
    · exact shapedL_nodes h.2 n hn
end

/-- The schema, node by node: the children of any node anywhere in the tree are of the allowed kinds. -/
theorem C43_children (dbg : Bool) (src : Text) (t : Green) (errs : List Err) (dropped : Text)
    (h : parse dbg src = .tree t errs dropped) (k : Kind) (cs : List Green) (hn : (k, cs) ∈ t.nodes) :
    ∀ g ∈ cs, g.kind ∈ allowed k :=
  (shaped_nodes (parse_shaped h).1 _ hn).1

/-- Modules occur at the top level only: no node but the file has a module among its children. -/
theorem C43_modules_top (dbg : Bool) (src : Text) (t : Green) (errs : List Err) (dropped : Text)
    (h : parse dbg src = .tree t errs dropped) (k : Kind) (cs : List Green) (hn : (k, cs) ∈ t.nodes)
    (hm : ∃ g ∈ cs, g.kind = .MODULE) : k = .ROOT := by
  obtain ⟨g, hg, hk⟩ := hm
  have := C43_children dbg src t errs dropped h k cs hn g hg
  rw [hk] at this
  revert this
  cases k <;> simp [allowed, form, junk, instrKinds, fieldKinds]

/-- Non-trivial case: a source with garbage in several places. -/
example : ∃ t e d, parse true t!"(module (func $f (param i32 ?) (if (then nop)) (module)) x" = .tree t e d ∧
    t.nodes.length = 10 ∧ e.length = 3 := by
  have : (parse true t!"(module (func $f (param i32 ?) (if (then nop)) (module)) x").test
      (fun t e _ => t.nodes.length == 10 && e.length == 3) = true := by decide +kernel
  obtain ⟨t, e, d, h1, h2⟩ := ParseOut.of_test this
  simp at h2
  exact ⟨t, e, d, h1, h2.1, h2.2⟩

end Verif
