import Verif.Lemmas.Root
/-!
C42: a value type node always holds exactly one of the seven type names, so converting it to a value type never
reaches the `unreachable!` of the type conversion (`/repo/crates/service/src/types_analyzer.rs`).
-/
namespace Verif
open Spec

/-- The seven value type names. -/
def Spec.valTypeNames : List Text :=
  [t!"i32", t!"i64", t!"f32", t!"f64", t!"v128", t!"funcref", t!"externref"]

/-- In every tree, at any depth and on every recovery path, a value type node has exactly one child, a token
spelled as one of the seven value types. -/
theorem C42_val_type_nodes (dbg : Bool) (src : Text) (t : Green) (errs : List Err) (dropped : Text)
    (h : parse dbg src = .tree t errs dropped) (cs : List Green) (hn : (.VAL_TYPE, cs) ∈ t.nodes) :
    ∃ k w, cs = [.tok k w] ∧ w ∈ valTypeNames := by
  obtain ⟨a, b, c, s1, s2, rfl, hR, _, _, hb, _⟩ := (parse_tree (I := invVal) trivial h).ex
  rw [Green.nodes, nodesL_append, hb.nodesL, List.append_nil] at hn
  rcases List.mem_cons.mp hn with hn | hn
  · cases hn
  · obtain ⟨k, w, rfl, hs, hk⟩ := hR _ hn rfl
    refine ⟨k, w, rfl, ?_⟩
    rcases hk with rfl | rfl | rfl <;> simp only [TokenShape] at hs <;> simp [valTypeNames] <;> grind

/-- Non-trivial case: value types next to garbage. -/
example : ∃ t e d, parse true t!"(module (func (param i32 foo $x v128" = .tree t e d ∧
    (t.nodes.filter fun n => n.1 == .VAL_TYPE).length = 2 := by
  have : (parse true t!"(module (func (param i32 foo $x v128").test
      (fun t _ _ => (t.nodes.filter fun n => n.1 == .VAL_TYPE).length == 2) = true := by decide +kernel
  obtain ⟨t, e, d, h1, h2⟩ := ParseOut.of_test this
  exact ⟨t, e, d, h1, by simpa using h2⟩

end Verif
