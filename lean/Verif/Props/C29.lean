import Verif.Lemmas.Action
import Verif.Props.C01
import Verif.Props.C06
/-!
C29: the memory-argument fix only deletes blanks.
-/
namespace Verif
open Spec

/-- C29 in full: whatever quick fix is offered, its edits insert nothing, take out blank tokens only and leave the
other tokens in place; so the characters that are not blanks stay the same. -/
def C29_statement : Prop :=
  ∀ (dbg : Bool) (src : Text) (g : Green) (errs : List Err) (dropped : Text), parse dbg src = .tree g errs dropped →
    ∀ (only : Option (List Text)) (r : Range) (as : List Action), codeActions src (Red.root g) only r = .done (some as) →
    ∀ a ∈ as, a.kind = t!"quickfix" → (∀ e ∈ a.edits, e.newText = []) ∧
      GluedFrom g dropped (applyEdits (a.edits.map asEdit) src) ∧ inked (applyEdits (a.edits.map asEdit) src) = inked src

/-- The broken escape before the cursor is not in the tree, so that the offsets of the tree are wrong. -/
def C29_src : Text := t!"(module (func (i32.const \"\\u(foo) (i32.load align =1)))"

/-- C29 fails: the fix deletes the `i` of `align`. -/
theorem C29_false : ¬ C29_statement := by
  intro h
  have : (parse false C29_src).test (fun g _ _ =>
      match codeActions C29_src (Red.root g) none ⟨⟨0, 47⟩, ⟨0, 47⟩⟩ with
      | .done (some [a]) => a.kind == t!"quickfix" && inked (applyEdits (a.edits.map asEdit) C29_src) != inked C29_src
      | _ => false) = true := by decide +kernel
  obtain ⟨g, e, d, h1, h2⟩ := ParseOut.of_test this
  split at h2
  · rename_i a ha
    rw [Bool.and_eq_true] at h2
    have := (h _ _ g e d h1 _ _ _ ha a (by simp) (by simpa using h2.1)).2.2
    simp [this] at h2
  · cases h2

/-- C29 for documents without a broken string. -/
theorem C29_partial (dbg : Bool) (src : Text) (g : Green) (errs : List Err) (dropped : Text) (hq : ¬ BadQuote src ∨ errs = [])
    (h : parse dbg src = .tree g errs dropped) (only : Option (List Text)) (r : Range) (as : List Action)
    (hr : codeActions src (Red.root g) only r = .done (some as)) (a : Action) (ha : a ∈ as) (hk : a.kind = t!"quickfix") :
    (∀ e ∈ a.edits, e.newText = []) ∧ GluedFrom g dropped (applyEdits (a.edits.map asEdit) src) ∧
      inked (applyEdits (a.edits.map asEdit) src) = inked src := by
  have hs := parse_solid h
  have ht := C01_kept_partial dbg src g errs dropped hq h
  obtain ⟨ab, n, _, hn, h1⟩ := codeActions_mem hr ha
  obtain ⟨_, h2⟩ := actionAt_quick h1 hk
  obtain ⟨ts, h3, h4, h5, h6⟩ := fix_text hs ht hn h2
  refine ⟨fun e he => (h5 e he).1, ⟨_, List.filter_sublist, ?_, ?_, h6⟩, ?_⟩
  · rcases Nat.lt_or_eq_of_le (List.length_filter_le (fun t : Tok => !(ts.any fun u => u.off == t.off)) (Red.root g).tokens) with h | h
    · exact h
    · exfalso
      obtain ⟨t, ht'⟩ := List.exists_mem_of_ne_nil _ h3
      have := List.length_filter_eq_length_iff.mp h t (h4 t ht').1
      rw [Bool.not_eq_true', List.any_eq_false] at this
      exact this t ht' (beq_self_eq_true t.off)
  · rw [List.filter_filter]
    refine List.filter_congr ?_
    intro t ht'
    cases hany : ts.any fun u => u.off == t.off with
    | false => simp
    | true =>
      obtain ⟨u, hu, he⟩ := List.any_eq_true.mp hany
      have := InTree.off_inj hs (h4 u hu).1 ht' (beq_iff_eq.mp he)
      subst this
      simp [solid, (h4 u hu).2.1]
  · rw [h6, ← ht, ← (tokens_lined hs).2]
    unfold inked
    rw [List.filter_append, List.filter_append]
    congr 1
    have hblank : ∀ t ∈ (Red.root g).tokens, (ts.any fun u => u.off == t.off) = true →
        t.text.filter (fun c => !(c == ' ' || c == '\t' || c == '\n' || c == '\r')) = [] := by
      intro t ht' hany
      obtain ⟨u, hu, he⟩ := List.any_eq_true.mp hany
      have := InTree.off_inj hs (h4 u hu).1 ht' (beq_iff_eq.mp he)
      subst this
      have h1 : TokenShape u.kind u.text := by
        have h1 := C06_token_shapes _ _ _ _ _ h (u.kind, u.text)
        obtain ⟨cs, rfl⟩ := hs.root
        exact h1 (by rw [← Red.tokens_text]; exact List.mem_map.mpr ⟨u, ht', rfl⟩)
      rw [(h4 u hu).2.1] at h1
      rw [List.filter_eq_nil_iff]
      intro c hc
      have := h1.2 c hc
      simp only [blanks, List.mem_cons, List.not_mem_nil, or_false] at this
      rcases this with rfl | rfl | rfl | rfl <;> decide
    generalize (Red.root g).tokens = l at hblank
    induction l with
    | nil => rfl
    | cons t l ih =>
      have ih := ih fun t ht => hblank t (List.mem_cons_of_mem _ ht)
      have h0 := hblank t (by simp)
      rw [List.filter_cons, textsOf_cons, List.filter_append]
      cases hany : ts.any (fun u => u.off == t.off) with
      | true => rw [h0 hany]; simpa using ih
      | false => simp only [Bool.not_false, if_true]; rw [textsOf_cons, List.filter_append, ih]

/-- Every blank that is deleted stands inside an unreadable memory argument. -/
theorem C29_where (dbg : Bool) (src : Text) (g : Green) (errs : List Err) (dropped : Text) (hq : ¬ BadQuote src ∨ errs = [])
    (h : parse dbg src = .tree g errs dropped) (only : Option (List Text)) (r : Range) (as : List Action)
    (hr : codeActions src (Red.root g) only r = .done (some as)) (a : Action) (ha : a ∈ as) (hk : a.kind = t!"quickfix")
    (e : TextEdit) (he : e ∈ a.edits) :
    ∃ b ∈ (Red.root g).tokens, b.kind = .WHITESPACE ∧ IsRange src (b.off, b.stop) e.range ∧ InsideArg g b := by
  have hs := parse_solid h
  have ht := C01_kept_partial dbg src g errs dropped hq h
  obtain ⟨ab, n, _, hn, h1⟩ := codeActions_mem hr ha
  obtain ⟨hkind, h2⟩ := actionAt_quick h1 hk
  obtain ⟨ts, h3, h4, h5, h6⟩ := fix_text hs ht hn h2
  obtain ⟨_, t, htt, hrange⟩ := h5 e he
  obtain ⟨k1, k2, x, y, l, r, k3⟩ := h4 t htt
  exact ⟨t, k1, k2, hrange, n, x, y, l, r, hn, hkind, k3⟩

/-- Non-trivial case: two blanks are deleted. -/
def C29_ok : Text := t!"(module (func (i32.load align = 1 (i32.const 0))))"

example : ¬ BadQuote C29_ok ∧ ∃ g e d a, parse true C29_ok = .tree g e d ∧
    codeActions C29_ok (Red.root g) none ⟨⟨0, 30⟩, ⟨0, 30⟩⟩ = .done (some [a]) ∧ a.kind = t!"quickfix" ∧ a.edits.length = 2 ∧
    applyEdits (a.edits.map asEdit) C29_ok = t!"(module (func (i32.load align=1 (i32.const 0))))" := by
  refine ⟨?_, ?_⟩
  · rintro ⟨a, b, h, _⟩
    have : '"' ∈ C29_ok := by rw [h]; simp
    revert this; decide
  · have : (parse true C29_ok).test (fun g _ _ =>
        match codeActions C29_ok (Red.root g) none ⟨⟨0, 30⟩, ⟨0, 30⟩⟩ with
        | .done (some [a]) => a.kind == t!"quickfix" && a.edits.length == 2 &&
            applyEdits (a.edits.map asEdit) C29_ok == t!"(module (func (i32.load align=1 (i32.const 0))))"
        | _ => false) = true := by decide +kernel
    obtain ⟨g, e, d, h1, h2⟩ := ParseOut.of_test this
    split at h2
    · rename_i a ha
      simp only [Bool.and_eq_true, beq_iff_eq] at h2
      exact ⟨g, e, d, a, h1, ha, h2.1.1, h2.1.2, h2.2⟩
    · cases h2

end Verif
