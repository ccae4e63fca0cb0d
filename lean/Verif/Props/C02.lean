import Verif.Props.C01
/-!
C02: the syntax tree is lossless.

Full statement (false of the code): for every source text, the text of the returned tree equals the source.
-/
namespace Verif
open Spec

/-- The full statement of C02. -/
def C02_statement : Prop :=
  ∀ (dbg : Bool) (src : Text) (t : Green) (errs : List Err) (dropped : Text),
    parse dbg src = .tree t errs dropped → t.text = src

/-- The code violates C02: after a form feed the rest of the document is missing from the tree. -/
theorem C02_false : ¬ C02_statement := by
  intro h
  have : (parse false t!"(module)\x0C(module)").test (fun t _ _ => t.text == t!"(module)") = true := by
    decide +kernel
  obtain ⟨t, e, d, h1, h2⟩ := ParseOut.of_test this
  have := h _ _ _ _ _ h1
  rw [beq_iff_eq.mp h2] at this
  revert this; decide

/-- C02 for sources without form feeds in which every quote opens a readable string (one with complete escapes
that ends at a quote, a line feed, a CR LF or the end). Missing for the full claim: sources with a form feed
or an unreadable string, where text can be dropped (`C02_false`). -/
theorem C02_partial (dbg : Bool) (src : Text) (t : Green) (errs : List Err) (dropped : Text)
    (hff : '\x0C' ∉ src) (hq : ∀ a b, src = a ++ '"' :: b → Readable b)
    (h : parse dbg src = .tree t errs dropped) : t.text = src ∧ dropped = [] := by
  have h1 := C01_partial dbg src t errs dropped (fun ⟨a, b, he, hb, _⟩ => hb (hq a b he)) h
  suffices hd : dropped = [] by rw [hd, List.append_nil] at h1; exact ⟨h1, hd⟩
  obtain ⟨a, b, c, s1, s2, _, _, hs1, ha, _, rfl, _, e, s3, hf⟩ := (parse_tree (I := invVal) trivial h).ex
  have hsuf : ∃ x, src = x ++ s2.rest := by
    obtain ⟨x, hx, _⟩ := hs1
    exact ⟨x ++ c, by have h2 : src = x ++ s1.rest := hx
                      rw [h2, ha.rest]; simp⟩
  obtain ⟨x, hx⟩ := hsuf
  rcases rootTail_fail hf with h | ⟨y, h⟩ | ⟨b, h, hn⟩
  · exact h
  · exact absurd (by rw [hx, ← h]; simp) hff
  · exact absurd (hq x b (by rw [hx, h])) hn

/-- Whatever is dropped starts with a form feed or with a quote that opens no readable string; and then a
syntax error covering the whole document is reported, so text is never lost silently. -/
theorem C02_dropped_partial (dbg : Bool) (src : Text) (t : Green) (errs : List Err) (dropped : Text)
    (h : parse dbg src = .tree t errs dropped) (hd : dropped ≠ []) :
    (['\x0C'] <+: dropped ∨ ∃ b, dropped = '"' :: b ∧ ¬ Readable b) ∧ ⟨0, bytes src, .unknown⟩ ∈ errs := by
  obtain ⟨a, b, c, s1, s2, _, _, _, _, _, rfl, he, e, s3, hf⟩ := (parse_tree (I := invVal) trivial h).ex
  constructor
  · rcases rootTail_fail hf with h | h | h
    · exact absurd h hd
    · exact .inl h
    · exact .inr h
  · rw [he]; simp [hd]

/-- Both cases together: the source has no form feed and its strings are readable, or it is parsed without errors. -/
theorem C02_kept_partial (dbg : Bool) (src : Text) (t : Green) (errs : List Err) (dropped : Text)
    (hc : '\x0C' ∉ src ∧ (∀ a b, src = a ++ '"' :: b → Readable b) ∨ errs = [])
    (h : parse dbg src = .tree t errs dropped) : t.text = src ∧ dropped = [] := by
  rcases hc with ⟨hff, hq⟩ | rfl
  · exact C02_partial dbg src t errs dropped hff hq h
  · refine ⟨C01_clean_partial dbg src t dropped h, Classical.byContradiction fun hd => ?_⟩
    cases (C02_dropped_partial dbg src t [] dropped h hd).2

/-- Non-trivial case of `C02_partial`: a source with a string, an escape and several syntax errors. -/
example : ∃ t e, parse true t!"(data \"\\u{41}\" (func (module $x foo" = .tree t e [] ∧
    t.text = t!"(data \"\\u{41}\" (func (module $x foo" ∧ e ≠ [] := by
  have : (parse true t!"(data \"\\u{41}\" (func (module $x foo").test (fun _ e _ => !e.isEmpty) = true := by
    decide +kernel
  obtain ⟨t, e, d, h1, h2⟩ := ParseOut.of_test this
  have := C02_partial _ _ _ _ _ (by decide +kernel) (fun a b h => ?_) h1
  · obtain ⟨h3, rfl⟩ := this
    exact ⟨t, e, h1, h3, by simpa using h2⟩
  · -- there are two quotes
    have := mem_quoteTails h
    rw [show quoteTails t!"(data \"\\u{41}\" (func (module $x foo" =
      [t!"\\u{41}\" (func (module $x foo", t!" (func (module $x foo"] by decide +kernel] at this
    simp only [List.mem_cons, List.not_mem_nil, or_false] at this
    rcases this with rfl | rfl
    · exact ⟨t!"\\u{41}", t!"\" (func (module $x foo", rfl,
        StrBody.uni t!"41" [] (by decide) .nil, .inr (.inl ⟨_, rfl⟩)⟩
    · refine ⟨_, [], (List.append_nil _).symm, ?_, .inl rfl⟩
      repeat (first | exact .nil | refine .char _ _ (by decide) ?_)

/-- Non-trivial case of `C02_dropped_partial`. -/
example : ∃ t e, parse true t!"(module)\"\\" = .tree t e t!"\"\\" := by
  have : (parse true t!"(module)\"\\").test (fun _ _ d => d == t!"\"\\") = true := by decide +kernel
  obtain ⟨t, e, d, h1, h2⟩ := ParseOut.of_test this
  exact ⟨t, e, by rw [h1, beq_iff_eq.mp h2]⟩

end Verif
