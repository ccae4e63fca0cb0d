import Verif.Lemmas.Outline
import Verif.Lemmas.Cursor
import Verif.Props.C02
/-!
C21: selection ranges are nested and reach the whole document.

Full statement (false of the code): there is one chain for every position asked for; in each chain every range lies in
the next one; the last range of each chain is the whole document.
-/
namespace Verif
open Spec

/-- The full statement of C21. -/
def C21_statement : Prop :=
  ∀ (dbg : Bool) (src : Text) (g : Green) (errs : List Err) (dropped : Text), parse dbg src = .tree g errs dropped →
    ∀ (ps : List Pos) (cs : List (List Range)), selectionRange src (Red.root g) ps = .done cs →
      cs.length = ps.length ∧ ∀ c ∈ cs, c.Pairwise LiesIn ∧ c.getLast? = some ⟨⟨0, 0⟩, posAfter src⟩

/-- The code violates C21: a position between a blank and a parenthesis is left out of the answer, so that the answers
for the other positions move up. -/
theorem C21_false : ¬ C21_statement := by
  intro h
  have : (parse false t!"(module (func))").test (fun g _ _ =>
      match selectionRange t!"(module (func))" (Red.root g) [⟨0, 8⟩, ⟨0, 3⟩] with
      | .done cs => cs.length == 1
      | .panic => false) = true := by decide +kernel
  obtain ⟨g, e, d, h1, h2⟩ := ParseOut.of_test this
  cases ho : selectionRange t!"(module (func))" (Red.root g) [⟨0, 8⟩, ⟨0, 3⟩] with
  | panic => rw [ho] at h2; cases h2
  | done cs =>
    have := (h _ _ _ _ _ h1 _ _ ho).1
    rw [ho] at h2
    simp only [beq_iff_eq] at h2
    rw [h2] at this
    cases this

/-- The code violates C21 also where it answers: text dropped by the parser (a form feed) is outside of the last
range. -/
theorem C21_false_whole : ¬ ∀ (dbg : Bool) (src : Text) (g : Green) (errs : List Err) (dropped : Text),
    parse dbg src = .tree g errs dropped → ∀ (ps : List Pos) (cs : List (List Range)),
      selectionRange src (Red.root g) ps = .done cs → ∀ c ∈ cs, c.getLast? = some ⟨⟨0, 0⟩, posAfter src⟩ := by
  intro h
  have : (parse false t!"(module)\x0C").test (fun g _ _ =>
      match selectionRange t!"(module)\x0C" (Red.root g) [⟨0, 3⟩] with
      | .done [c] => c.getLast? != some ⟨⟨0, 0⟩, posAfter t!"(module)\x0C"⟩
      | _ => false) = true := by decide +kernel
  obtain ⟨g, e, d, h1, h2⟩ := ParseOut.of_test this
  cases ho : selectionRange t!"(module)\x0C" (Red.root g) [⟨0, 3⟩] with
  | panic => rw [ho] at h2; cases h2
  | done cs =>
    rw [ho] at h2
    match cs, h2, ho with
    | [c], h2, ho =>
      have := h _ _ _ _ _ h1 _ _ ho c (by simp)
      simp only [bne_iff_ne, ne_eq] at h2
      exact h2 this

/-- C21 without the claim that every position has a chain, and with the tree instead of the document: in each chain
every range lies in the next one, and the last one is the range of the whole tree.  With `C21_whole_partial` the last
range is the whole document where the parser drops no text. -/
theorem C21_nested_partial (dbg : Bool) (src : Text) (g : Green) (errs : List Err) (dropped : Text)
    (h : parse dbg src = .tree g errs dropped) (ps : List Pos) (cs : List (List Range))
    (hr : selectionRange src (Red.root g) ps = .done cs) (c : List Range) (hc : c ∈ cs) :
    c.Pairwise LiesIn ∧ ∃ r, c.getLast? = some r ∧ IsRange src (0, bytes g.text) r := by
  have hs := parse_solid h
  obtain ⟨p, _, t, h1, h2⟩ := selectionRange_mem hr hc
  obtain ⟨h3, ⟨r, h4, h5⟩, _⟩ := selection_chain (found_mem h1) h2
  refine ⟨h3, r, h4, ?_⟩
  obtain ⟨cs, rfl⟩ := hs.root
  rw [text_node]
  have : (Red.root (.node .ROOT cs)).stop = bytes (Green.textL cs) := by
    show 0 + bytes (Green.textL cs) = _; omega
  rw [← this]; exact h5

/-- C21, the outermost range: the whole document, for documents without form feeds and with readable strings, and for
those without errors. -/
theorem C21_whole_partial (dbg : Bool) (src : Text) (g : Green) (errs : List Err) (dropped : Text)
    (h : parse dbg src = .tree g errs dropped) (hc : '\x0C' ∉ src ∧ (∀ a b, src = a ++ '"' :: b → Readable b) ∨ errs = [])
    (ps : List Pos) (cs : List (List Range)) (hr : selectionRange src (Red.root g) ps = .done cs) (c : List Range)
    (hm : c ∈ cs) : c.getLast? = some ⟨⟨0, 0⟩, posAfter src⟩ := by
  obtain ⟨_, r, h1, h2⟩ := C21_nested_partial dbg src g errs dropped h ps cs hr c hm
  rw [(C02_kept_partial dbg src g errs dropped hc h).1] at h2
  have h3 : IsRange src (0, bytes src) ⟨⟨0, 0⟩, posAfter src⟩ :=
    ⟨⟨[], src, rfl, rfl, rfl⟩, ⟨src, [], by simp, rfl, rfl⟩⟩
  have h4 := isRange_eq h2
  rw [isRange_eq h3] at h4
  rw [h1, Option.some.inj h4]

/-- C21, what the ranges are: with the cursor on a significant token there is a chain; it starts with the token and
goes on with exactly the constructs around the token. -/
theorem C21_cursor_partial (dbg : Bool) (src : Text) (g : Green) (errs : List Err) (dropped : Text)
    (h : parse dbg src = .tree g errs dropped) (hq : ¬ BadQuote src ∨ errs = []) (u v : Text) (hu : src = u ++ v) (t : Tok)
    (hc : CursorOn (Red.root g) (bytes u) t) :
    ∃ c, selectionRange src (Red.root g) [posAfter u] = .done [c] ∧
      (∃ r, c.head? = some r ∧ IsRange src (t.off, t.off + bytes t.text) r) ∧
      (∀ n ∈ (Red.root g).descendants, t ∈ n.tokens → ∃ r ∈ c, IsRange src (n.start, n.stop) r) ∧
      ∀ r ∈ c.tail, ∃ n ∈ (Red.root g).descendants, t ∈ n.tokens ∧ IsRange src (n.start, n.stop) r := by
  have hs := parse_solid h
  have ht := C01_kept_partial dbg src g errs dropped hq h
  subst hu
  have hf := cursor_token hs hc (v := v)
  have hb : bytes u ≤ (Red.root g).stop := by
    have h1 := Red.tokens_within hc.mem
    have h2 := hc.touch
    unfold Tok.stop at h1; omega
  obtain ⟨cs, hcs⟩ := selectionRange_ok hs ht (ps := [posAfter u]) (by
    intro p hp off ho
    rw [List.mem_singleton] at hp; subst hp
    rw [offsetAt_eq u v] at ho
    cases ho; exact hb)
  have hcs' := hcs
  simp only [selectionRange, Ans.filterMapL, hf, Ans.bindO, Ans.bind] at hcs'
  cases hch : selectionChain (u ++ v) t with
  | panic => rw [hch] at hcs'; cases hcs'
  | done c =>
    rw [hch] at hcs'
    simp only [Option.toList_some, List.append_nil, Ans.done.injEq] at hcs'
    subst hcs'
    obtain ⟨_, _, h3, h4, h5⟩ := selection_chain hc.mem hch
    exact ⟨c, hcs, h3, h4, h5⟩

/-- Non-trivial case: a cursor in the name of a call inside a function, in a document with a comment; five ranges. -/
example : ∃ g e d t c, parse true t!"(module\n (func $f (call $f))) ;; c" = .tree g e d ∧
    CursorOn (Red.root g) (bytes t!"(module\n (func $f (call $") t ∧
    selectionRange t!"(module\n (func $f (call $f))) ;; c" (Red.root g) [⟨1, 17⟩] = .done [c] ∧ 5 < c.length := by
  have : (parse true t!"(module\n (func $f (call $f))) ;; c").test (fun g _ _ =>
      cursorTest (Red.root g) (bytes t!"(module\n (func $f (call $") (fun _ => true) &&
      match selectionRange t!"(module\n (func $f (call $f))) ;; c" (Red.root g) [⟨1, 17⟩] with
      | .done [c] => decide (5 < c.length)
      | _ => false) = true := by decide +kernel
  obtain ⟨g, e, d, h1, h2⟩ := ParseOut.of_test this
  rw [Bool.and_eq_true] at h2
  obtain ⟨t, h3, _⟩ := cursorTest_spec h2.1
  have h4 := h2.2
  split at h4
  · rename_i c hc
    exact ⟨g, e, d, t, c, h1, h3, hc, by simpa using h4⟩
  · cases h4

end Verif
