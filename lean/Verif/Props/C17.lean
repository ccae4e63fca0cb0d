import Verif.Lemmas.Check
/-!
C17: the second and every later module of a document is reported, in order, and nothing else is reported as a
superfluous module.
-/
namespace Verif
open Spec

/-- The modules of a document. -/
def Spec.modulesOf (g : Green) : List Red := (Red.root g).children.filter fun c => c.kind == .MODULE

/-- C17: the diagnostics that only one module is allowed are, in order, those at the modules after the first. -/
theorem C17_proved (dbg : Bool) (src : Text) (g : Green) (errs : List Err) (dropped : Text)
    (h : parse dbg src = .tree g errs dropped) (ds : List Diag) (hd : diagnostics src (Red.root g) errs = .done ds) :
    (ds.filter fun d => d.msg == .onlyOneModule).length = (modulesOf g).length - 1 ∧
      ∀ (k : Nat) m d, (modulesOf g)[k + 1]? = some m → (ds.filter fun d => d.msg == .onlyOneModule)[k]? = some d →
        IsRange src (m.start, m.stop) d.range ∧ d.related = [] := by
  have hs := parse_solid h
  obtain ⟨nodes, dups, h1, h2, h3⟩ := diagnostics_elim hd
  have h4 := mapL_filter (p := fun r => r.msg == .onlyOneModule) (q := fun d => d.msg == .onlyOneModule)
    (fun a b hab => by rw [(toDiag_msg hab).1]) h3
  have hnil : ∀ (l : List RawDiag), (∀ r ∈ l, r.msg.checker ≠ .modules) → (l.filter fun r => r.msg == .onlyOneModule) = [] := by
    intro l hl
    rw [List.filter_eq_nil_iff]
    intro r hr hm
    exact hl r hr (by rw [beq_iff_eq.mp hm]; rfl)
  have e1 : nodes.flatten.filter (fun r => r.msg == .onlyOneModule) = checkModules (Red.root g) := by
    have hr := root_kind hs
    rw [Red.descendants_eq] at h1
    simp only [Ans.mapL] at h1
    obtain ⟨a, h5, h1⟩ := bind_done h1
    obtain ⟨bs, h6, h1⟩ := bind_done h1
    cases h1
    have : a = checkModules (Red.root g) := by
      unfold checkNode at h5
      rw [hr] at h5
      cases h5; rfl
    subst this
    rw [List.flatten_cons, List.filter_append, hnil bs.flatten, List.append_nil, List.filter_eq_self]
    · intro r hr
      obtain ⟨m, _, rfl⟩ := List.mem_map.mp hr
      rfl
    · intro r hr
      obtain ⟨n, hn, l, hl, hrl⟩ := (flatten_mem h6 r).mp hr
      obtain ⟨c, hc, hnc⟩ := List.mem_flatMap.mp hn
      rcases checkNode_msg hl hrl with h7 | h7 | h7
      · exfalso
        have hct := InTree.child (InTree.root g) hc
        have hroot := InTree.root_of_kind hs (hct.descendant hnc) h7.2.1
        rw [hroot, hct.mem_descendants (InTree.root g)] at hnc
        have := Red.mem_ancestors.mp hnc
        obtain ⟨m, hm⟩ := this
        have h8 := (Red.mem_children.mp hc).2
        rw [h8] at hm
        have := congrArg List.length hm
        simp [Red.root] at this
      · rw [h7.1]; decide
      · rw [h7.1]; decide
  rw [List.filter_append, List.filter_append, List.filter_append, e1,
    hnil (errs.map _) (by intro r hr; obtain ⟨e, _, rfl⟩ := List.mem_map.mp hr; simp [DiagMsg.checker]),
    hnil (checkUndef _) (by intro r hr; rw [checkUndef_msg hr]; decide),
    hnil dups (by intro r hr; rw [checkDup_msg h2 hr]; decide), List.nil_append, List.append_nil, List.append_nil] at h4
  obtain ⟨h5, h6⟩ := mapL_getElem h4
  refine ⟨?_, ?_⟩
  · rw [← h5]
    simp [checkModules, modulesOf, Red.childrenOf]
  · intro k m d hm hd
    have := h6 k (nodeDiag m .onlyOneModule) d (by
      simp only [checkModules, Red.childrenOf, List.getElem?_map, List.getElem?_drop]
      unfold modulesOf at hm
      rw [Nat.add_comm 1 k, hm]; rfl) hd
    refine ⟨(toDiag_msg this).2, ?_⟩
    have := (toDiag_related this).1
    exact List.eq_nil_of_length_eq_zero this.symm

/-- Non-trivial case: three modules with a comment between them; two diagnostics. -/
example : ∃ g e d ds, parse true t!"(module) (;c;) (module (func))\n(module)" = .tree g e d ∧
    diagnostics t!"(module) (;c;) (module (func))\n(module)" (Red.root g) e = .done ds ∧ (modulesOf g).length = 3 ∧
    ds.map (·.range) = [⟨⟨0, 15⟩, ⟨0, 30⟩⟩, ⟨⟨1, 0⟩, ⟨1, 8⟩⟩] := by
  have : (parse true t!"(module) (;c;) (module (func))\n(module)").test (fun g e _ =>
      (match diagnostics t!"(module) (;c;) (module (func))\n(module)" (Red.root g) e with
      | .done ds => ds.map (·.range) == [⟨⟨0, 15⟩, ⟨0, 30⟩⟩, ⟨⟨1, 0⟩, ⟨1, 8⟩⟩]
      | .panic => false) && (modulesOf g).length == 3) = true := by decide +kernel
  obtain ⟨g, e, d, h1, h2⟩ := ParseOut.of_test this
  rw [Bool.and_eq_true] at h2
  obtain ⟨h2, h3⟩ := h2
  split at h2
  · rename_i ds hr
    exact ⟨g, e, d, ds, h1, hr, by simpa using h3, by simpa using h2⟩
  · cases h2

end Verif
