import Verif.Lemmas.Hints
import Verif.Props.C01
/-!
C27: inlay hints stay in the requested range and name the real declaration.

Full statement (false of the code): every hint is at a position in the range asked for, and tells the type of what the
reference before it resolves to, or the name of the function before it.
-/
namespace Verif
open Spec

/-- The full statement of C27. -/
def C27_statement : Prop :=
  ∀ (dbg : Bool) (src : Text) (g : Green) (errs : List Err) (dropped : Text), parse dbg src = .tree g errs dropped →
    ∀ (r : Range) (hints : List Hint), inlayHints src (Red.root g) r = .done (some hints) →
      ∀ h ∈ hints, PosWithin r h.position ∧ Truthful g src h

/-- The code violates C27: the number of a global counts all fields of the module, so the type shown is that of another
global. -/
theorem C27_false : ¬ ∀ (dbg : Bool) (src : Text) (g : Green) (errs : List Err) (dropped : Text), parse dbg src = .tree g errs dropped →
    ∀ (r : Range) (hints : List Hint), inlayHints src (Red.root g) r = .done (some hints) → ∀ h ∈ hints, Truthful g src h := by
  intro hst
  have : (parse false t!"(module (func) (import \"\" \"\" (global i32)) (import \"\" \"\" (global i64)) (func (global.get 1)))").test (fun g _ _ =>
      (match inlayHints t!"(module (func) (import \"\" \"\" (global i32)) (import \"\" \"\" (global i64)) (func (global.get 1)))" (Red.root g) ⟨⟨0, 0⟩, ⟨0, 90⟩⟩ with
       | .done (some [h]) => h.label == t!"i32"
       | _ => false) &&
      ((Red.root g).descendants.all fun x => (x.kind != .OPERAND && x.kind != .INDEX) ||
        (indexOf x == some (.num 1) && (x.parent.bind fun p => (p.token .INSTR_NAME).map Tok.text) == some t!"global.get" &&
          ((declarations .global x)[1]?.bind globalTypeOf) == some .i64))) = true := by decide +kernel
  obtain ⟨g, e, d, h1, h2⟩ := ParseOut.of_test this
  rw [Bool.and_eq_true] at h2
  obtain ⟨h2, h3⟩ := h2
  split at h2
  · rename_i h hh
    rw [beq_iff_eq] at h2
    have hs := parse_solid h1
    rcases hst _ _ _ _ _ h1 _ _ hh h (List.mem_singleton.mpr rfl) with ⟨x, sp, dd, ty, a1, a2, ⟨sp', i, b1, b2, b3⟩, a4, _, a6⟩ |
      ⟨m, k, dd, nm, _, _, _, a4⟩
    · have hx := List.all_eq_true.mp h3 x a1
      have hk := refersTo_kind hs a1 a2
      simp only [Bool.or_eq_true, Bool.and_eq_true, bne_iff_ne, ne_eq, beq_iff_eq] at hx
      replace hx := hx.resolve_left (fun h => by rcases hk with e | e; exact h.1 e; exact h.2 e)
      obtain ⟨⟨c1, c2⟩, c3⟩ := hx
      have := refersTo_fun a2 b1; subst this
      rw [c1] at b2; cases b2
      have hsp : sp = .global := by
        rcases a4 with ⟨rfl, _⟩ | ⟨h, _⟩
        · exfalso
          rcases refersTo_elim a2 with ⟨p, t, k1, _, k3, k4, _⟩ | ⟨p, k1, k2, _⟩
          · rw [k1] at c2
            simp only [Option.bind_some, k3, Option.map_some, Option.some.injEq] at c2
            rw [c2] at k4
            revert k4; decide
          · revert k2
            generalize p.kind = kk
            cases kk <;> decide
        · exact h
      subst hsp
      simp only [Denotes] at b3
      rw [b3, Option.bind_some] at c3
      rcases a4 with ⟨h, _⟩ | ⟨_, a4⟩
      · cases h
      · rw [c3] at a4; cases a4
        rw [h2] at a6
        revert a6; decide
    · rw [h2] at a4
      cases a4
  · cases h2

/-- The code violates C27: a range that ends behind the end of its line takes in the next lines. -/
theorem C27_false_column : ¬ ∀ (dbg : Bool) (src : Text) (g : Green) (errs : List Err) (dropped : Text), parse dbg src = .tree g errs dropped →
    ∀ (r : Range) (hints : List Hint), inlayHints src (Red.root g) r = .done (some hints) → ∀ h ∈ hints, PosWithin r h.position := by
  intro hst
  have : (parse false t!"(module\n(func $f))").test (fun g _ _ =>
      match inlayHints t!"(module\n(func $f))" (Red.root g) ⟨⟨0, 0⟩, ⟨0, 17⟩⟩ with
      | .done (some [h]) => h.position == ⟨1, 9⟩
      | _ => false) = true := by decide +kernel
  obtain ⟨g, e, d, h1, h2⟩ := ParseOut.of_test this
  split at h2
  · rename_i h hh
    rw [beq_iff_eq] at h2
    refine (hst _ _ _ _ _ h1 _ _ hh h (List.mem_singleton.mpr rfl)).2 ?_
    rw [h2]
    exact .inl (by decide)
  · cases h2

/-- C27 for ranges of the document (`w` of `u ++ w ++ v`): the hints are in the range, and if no index of a global counts fields that
are not globals, they are truthful, and every reference in the range to exactly one local or global with a type has a hint, and every named
function whose end is in the range.  Missing for the full claim: indices of globals that count other fields (`C27_false`) and ranges with
columns behind the end of a line (`C27_false_column`). -/
theorem C27_partial (dbg : Bool) (src : Text) (g : Green) (errs : List Err) (dropped : Text)
    (h : parse dbg src = .tree g errs dropped) (u w v : Text) (hsrc : src = u ++ w ++ v) (o : Option (List Hint))
    (ho : inlayHints src (Red.root g) ⟨posAfter u, posAfter (u ++ w)⟩ = .done o) :
    ∃ hints, o = some hints ∧ (∀ h ∈ hints, PosWithin ⟨posAfter u, posAfter (u ++ w)⟩ h.position) ∧
      ((∀ x ∈ (Red.root g).descendants, ∀ k, RefersTo x .global → indexOf x = some (.num k) → CountsAlike .global x k) →
        (∀ h ∈ hints, Truthful g src h) ∧
        ∀ x ∈ (Red.root g).descendants, ∀ sp d ty, RefersTo x sp → OnlyResolves x d → HasType sp d ty →
          Inside (bytes u, bytes (u ++ w)) x.start x.stop →
          ∃ h ∈ hints, TypeHint src (bytes u, bytes (u ++ w)) x ty h) ∧
      ∀ m k d nm a, IsFunc g m k d → nameOf d = some nm → lastStart d = some a → Inside (bytes u, bytes (u ++ w)) a d.stop →
        ∃ h ∈ hints, FuncHint src (bytes u, bytes (u ++ w)) d nm h := by
  have hs := parse_solid h
  have h0 := parse_valOk h
  have hr := parse_root_green h
  obtain ⟨hints, rfl, hh⟩ := inlayHints_done hsrc ho
  refine ⟨hints, rfl, ?_, ?_, fun m k d nm a h1 h2 h3 h4 => hint_func hs hh h1 h2 h3 h4⟩
  · intro h hm
    obtain ⟨s, hsm, he⟩ := (filterMapL_mem hh h).mp hm
    have key : ∀ off, bytes u ≤ off → off ≤ bytes (u ++ w) → IsPos src off h.position →
        PosWithin ⟨posAfter u, posAfter (u ++ w)⟩ h.position := by
      intro off h1 h2 h3
      have h4 : rowanPosToLsp src off = some h.position := lineCol_iff.mpr h3
      have h5 : rowanPosToLsp src (bytes u) = some (posAfter u) := lineCol_iff.mpr ⟨u, w ++ v, by rw [hsrc]; simp, rfl, rfl⟩
      have h6 : rowanPosToLsp src (bytes (u ++ w)) = some (posAfter (u ++ w)) := lineCol_iff.mpr ⟨u ++ w, v, hsrc, rfl, rfl⟩
      constructor
      · intro hlt
        have := (C07_order src _ _ _ _ h4 h5).mpr hlt
        omega
      · intro hlt
        have := (C07_order src _ _ _ _ h6 h4).mpr hlt
        omega
    rcases symbolHint_sound hs h0 hr hsm he with ⟨x, r, i, sp, d, ty, _, a2, _, _, a5⟩ | ⟨m, k, d, nm, a1, a2⟩
    · have := hsrc
      refine key x.stop ?_ a5.inside.2 a5.position
      have h1 := a5.inside.1
      have h2 := a2.tree.lt_stop hs (a2.isSym.nonempty hs)
      exact Nat.le_trans h1 (Nat.le_of_lt h2)
    · obtain ⟨a, h1, h2⟩ := a2.inside
      refine key d.stop ?_ h2.2 a2.position
      have : a ≤ d.stop := by
        have e := lastRange_eq d
        rw [h1, Option.map_some] at e
        exact lastRange_le e
      exact Nat.le_trans h2.1 this
  · intro hn
    constructor
    · intro h hm
      obtain ⟨s, hsm, he⟩ := (filterMapL_mem hh h).mp hm
      rcases symbolHint_sound hs h0 hr hsm he with ⟨x, r, i, sp, d, ty, a1, a2, a3, a4, a5⟩ | ⟨m, k, d, nm, a1, a2⟩
      · refine .inl ⟨x, sp, d, ty, a2.tree, a2.refers, ⟨sp, i, a2.refers, a2.idx, ?_⟩, a4, a5.position, a5.label⟩
        refine typed_denotes a2 a1 (fun e k hk => ?_) a3
        subst e; subst hk
        exact hn x a2.tree k a2.refers a2.idx
      · exact .inr ⟨m, k, d, nm, a1, a2.name, a2.position, a2.label⟩
    · intro x hx sp d ty h1 h2 h3 h4
      obtain ⟨⟨sp', i, b1, b2, b3⟩, hu⟩ := h2
      have := refersTo_fun h1 b1; subst this
      have ht : isTyped sp = true := by rcases h3 with ⟨rfl, _⟩ | ⟨rfl, _⟩ <;> rfl
      have hal : sp = .global → ∀ k, i = .num k → CountsAlike sp x k := by
        rintro rfl k rfl
        exact hn x hx k h1 b2
      obtain ⟨r, hsc⟩ : ∃ r, scopeOf sp x = some r := by
        rcases h3 with ⟨rfl, _⟩ | ⟨rfl, _⟩
        · cases hsc : scopeOf .local x with
          | some r => exact ⟨r, rfl⟩
          | none =>
            exfalso
            have hdl : declarations .local x = [] := by simp [declarations, hsc]
            cases i <;> simp [Denotes, hdl] at b3
        · obtain ⟨m, hm, hxm⟩ := InTree.in_module hs hx (by
            rcases refersTo_kind hs hx h1 with e | e <;> rw [e] <;> decide)
          exact ⟨m, module_scope hs hm hxm⟩
      have hir : IsRef g x r sp i := ⟨hx, h1, hsc, b2⟩
      have hu' : ∀ d', CodeDef sp r i d' → d' = d := fun d' hd' =>
        hu d' ⟨sp, i, h1, b2, typed_denotes hir ht hal hd'⟩
      obtain ⟨d', hd'⟩ := denotes_typed hir ht hal b3
      have := hu' d' hd'
      subst this
      exact hint_ref hs h0 hr hh ht hir hd' hu' h3 h4

/-- The request is answered, for sources without a bad quote or without errors (see `C01_kept_partial`) and ranges of the document. -/
theorem C27_answer (dbg : Bool) (src : Text) (g : Green) (errs : List Err) (dropped : Text)
    (h : parse dbg src = .tree g errs dropped) (hq : ¬ BadQuote src ∨ errs = []) (u w v : Text) (hsrc : src = u ++ w ++ v) :
    ∃ hints, inlayHints src (Red.root g) ⟨posAfter u, posAfter (u ++ w)⟩ = .done (some hints) := by
  have hr : (lspRangeToRowan src ⟨posAfter u, posAfter (u ++ w)⟩).Ok := by
    rw [hsrc, lspRange_ok]
    exact ok_done _
  obtain ⟨o, ho⟩ := inlayHints_ok (parse_solid h) (C01_kept_partial dbg src g errs dropped hq h) hr
  obtain ⟨hints, rfl, _⟩ := inlayHints_done hsrc ho
  exact ⟨hints, ho⟩

/-- Non-trivial case: hints for a local by number, a global by name, and the function; only the last two are in the range. -/
example : ∃ g e d hints, parse true t!"(module (import \"\" \"\" (global $g i64)) (func $f (param i32 f64) (local.get 1) (global.get $g)))" = .tree g e d ∧
    inlayHints t!"(module (import \"\" \"\" (global $g i64)) (func $f (param i32 f64) (local.get 1) (global.get $g)))" (Red.root g) ⟨⟨0, 77⟩, ⟨0, 94⟩⟩ = .done (some hints) ∧
    hints.map Hint.label = [t!"(func $f)", t!"i64"] ∧ (∀ h ∈ hints, Truthful g t!"(module (import \"\" \"\" (global $g i64)) (func $f (param i32 f64) (local.get 1) (global.get $g)))" h) := by
  have : (parse true t!"(module (import \"\" \"\" (global $g i64)) (func $f (param i32 f64) (local.get 1) (global.get $g)))").test (fun g _ _ =>
      (match inlayHints t!"(module (import \"\" \"\" (global $g i64)) (func $f (param i32 f64) (local.get 1) (global.get $g)))" (Red.root g) ⟨⟨0, 77⟩, ⟨0, 94⟩⟩ with
       | .done (some hints) => hints.map Hint.label == [t!"(func $f)", t!"i64"]
       | _ => false) &&
      ((Red.root g).descendants.all fun x => (x.kind != .OPERAND && x.kind != .INDEX) || (nameOf x).isSome ||
        (x.parent.bind fun p => (p.token .INSTR_NAME).map Tok.text) == some t!"local.get")) = true := by decide +kernel
  obtain ⟨g, e, d, h1, h2⟩ := ParseOut.of_test this
  rw [Bool.and_eq_true] at h2
  obtain ⟨h2, h3⟩ := h2
  have hs := parse_solid h1
  split at h2
  · rename_i hints hh
    rw [beq_iff_eq] at h2
    refine ⟨g, e, d, hints, h1, hh, h2, ?_⟩
    obtain ⟨hints', e1, _, h4, _⟩ := C27_partial _ _ _ _ _ h1
      t!"(module (import \"\" \"\" (global $g i64)) (func $f (param i32 f64) (local.get 1)" t!" (global.get $g))" t!")" rfl _ hh
    cases e1
    refine (h4 ?_).1
    intro x hx k hr hi
    exfalso
    have hx' := List.all_eq_true.mp h3 x hx
    have hk := refersTo_kind hs hx hr
    simp only [Bool.or_eq_true, Bool.and_eq_true, bne_iff_ne, ne_eq, beq_iff_eq] at hx'
    rcases hx' with (h5 | h5) | h5
    · rcases hk with e | e
      · exact h5.1 e
      · exact h5.2 e
    · obtain ⟨n, hn⟩ := Option.isSome_iff_exists.mp h5
      unfold indexOf at hi
      rw [hn] at hi
      cases hi
    · rcases refersTo_elim hr with ⟨p, t, k1, _, k3, k4, _⟩ | ⟨p, k1, k2, _⟩
      · rw [k1] at h5
        simp only [Option.bind_some, k3, Option.map_some, Option.some.injEq] at h5
        rw [h5] at k4
        revert k4; decide
      · rw [k1] at h5
        revert k2
        have hx1 := (InTree.parent hx k1).1
        cases ht : p.token .INSTR_NAME with
        | none => rw [Option.bind_some, ht] at h5; cases h5
        | some t =>
          intro k2
          have := List.find?_some ht
          rw [beq_iff_eq] at this
          have h6 := hx1.tok_kind hs (List.mem_of_find?_eq_some ht)
          revert k2 h6
          rw [this]
          generalize p.kind = kk
          cases kk <;> simp [indexKind, allowed, form, junk]
  · cases h2

end Verif
