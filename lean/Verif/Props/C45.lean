import Verif.Lemmas.DiagOk
import Verif.Props.C01
import Verif.Props.C04
/-!
C45: diagnostics are collected without a crash, whatever the document.

Full statement (false of the code): for every document that is parsed, the checkers and the conversion of their
findings to positions give a list of diagnostics.
-/
namespace Verif
open P Spec

/-- The full statement of C45. -/
def C45_statement : Prop :=
  ∀ (dbg : Bool) (src : Text) (g : Green) (errs : List Err) (dropped : Text), parse dbg src = .tree g errs dropped →
    ∃ ds, diagnostics src (Red.root g) errs = .done ds

/-- The code violates C45: in `(module "\u(foo)) (;é;)(module)` the parser loses three bytes, so that the second module,
which is reported, seems to start inside the two bytes of `é`. -/
theorem C45_false : ¬ C45_statement := by
  intro h
  have : (parse false t!"(module \"\\u(foo)) (;é;)(module)").test (fun g e _ =>
      match diagnostics t!"(module \"\\u(foo)) (;é;)(module)" (Red.root g) e with
      | .panic => true
      | .done _ => false) = true := by decide +kernel
  obtain ⟨g, e, d, h1, h2⟩ := ParseOut.of_test this
  obtain ⟨ds, h3⟩ := h _ _ _ _ _ h1
  rw [h3] at h2
  cases h2

/-- C45 for the documents the parser does not lose text of: without a bad quote (an opening `"` that starts no readable
string and has a `\u` escape broken off at an opening parenthesis) all diagnostics are collected.  Missing for the full
claim: documents with a bad quote, where it is false (`C45_false`). -/
theorem C45_partial (dbg : Bool) (src : Text) (g : Green) (errs : List Err) (dropped : Text) (hq : ¬ BadQuote src ∨ errs = [])
    (h : parse dbg src = .tree g errs dropped) : ∃ ds, diagnostics src (Red.root g) errs = .done ds := by
  have hs := parse_solid h
  have ht := C01_kept_partial dbg src g errs dropped hq h
  have hr : (Red.root g).green = g := parse_root_green h
  obtain ⟨raw, h1, h2⟩ := checkRaw_post hs (parse_valOk h) hr
  have : (diagnostics src (Red.root g) errs).Ok := by
    unfold diagnostics
    rw [h1]
    refine Ans.Ok.bind (ok_done raw) fun r hr => ?_
    cases hr
    refine mapL_ok fun d hd => ?_
    rcases List.mem_append.mp hd with hd | hd
    · obtain ⟨e, he, rfl⟩ := List.mem_map.mp hd
      obtain ⟨⟨a, b, h3, h4⟩, ⟨a', b', h5, h6⟩⟩ := C04_partial dbg src g errs dropped h e he
      have hq : rowanRangeToLsp src e.start e.stop = some ⟨posAfter a, posAfter a'⟩ :=
        rowanRangeToLsp_iff.mpr ⟨⟨a, b, h3, h4.symm, rfl⟩, ⟨a', b', h5, h6.symm, rfl⟩⟩
      unfold toDiag
      simp only [hq]
      exact ok_done _
    · exact toDiag_ok hs ht (h2 d hd)
  exact this

/-- Whatever the document, each diagnostic that is reported and is no syntax error is at a node or a token of the tree,
and so is all that is related to it; a syntax error is at the range the parser gave. -/
theorem C45_places (dbg : Bool) (src : Text) (g : Green) (errs : List Err) (dropped : Text)
    (h : parse dbg src = .tree g errs dropped) (ds : List Diag) (hd : diagnostics src (Red.root g) errs = .done ds)
    (d : Diag) (hm : d ∈ ds) :
    (∃ e ∈ errs, d.msg = .syn e.msg ∧ d.related = [] ∧ IsRange src (e.start, e.stop) d.range) ∨
    ∀ r ∈ d.range :: d.related,
      (∃ n ∈ (Red.root g).descendants, IsRange src (n.start, n.stop) r) ∨
      ∃ t ∈ (Red.root g).tokens, IsRange src (t.off, t.off + bytes t.text) r := by
  have hs := parse_solid h
  have hr : (Red.root g).green = g := parse_root_green h
  obtain ⟨raw, h1, h2⟩ := checkRaw_post hs (parse_valOk h) hr
  unfold diagnostics at hd
  rw [h1] at hd
  replace hd : Ans.mapL (toDiag src) (errs.map (fun e => (⟨e.start, e.stop, .syn e.msg, []⟩ : RawDiag)) ++ raw) = .done ds := hd
  obtain ⟨x, hx, hxd⟩ := (mapL_mem hd d).mp hm
  obtain ⟨hmsg, hrange⟩ := toDiag_msg hxd
  obtain ⟨hlen, hrel⟩ := toDiag_related hxd
  rcases List.mem_append.mp hx with hx | hx
  · obtain ⟨e, he, rfl⟩ := List.mem_map.mp hx
    exact .inl ⟨e, he, hmsg, List.length_eq_zero_iff.mp (by simpa using hlen.symm), hrange⟩
  · refine .inr fun r hr => ?_
    have conv : ∀ {p : Nat × Nat}, Place g p.1 p.2 → IsRange src p r →
        (∃ n ∈ (Red.root g).descendants, IsRange src (n.start, n.stop) r) ∨
        ∃ t ∈ (Red.root g).tokens, IsRange src (t.off, t.off + bytes t.text) r := by
      rintro ⟨a, b⟩ (⟨n, hn, rfl, rfl⟩ | ⟨t, htm, rfl, rfl⟩) hq
      · exact .inl ⟨n, hn, hq⟩
      · exact .inr ⟨t, htm, hq⟩
    rcases List.mem_cons.mp hr with rfl | hr
    · exact conv (h2 x hx).1 hrange
    · obtain ⟨p, hp, hq⟩ := (hrel r).mp hr
      exact conv ((h2 x hx).2 p hp) hq

/-- Non-trivial case: all kinds of diagnostics in one document with multi-byte characters. -/
example : ∃ g e d, parse true t!"(module (;é;) (func $a (param i32)) (func $a (call $a) (i32.const é) (br 1)) (start ))\n(module)" = .tree g e d ∧
    ∃ ds, diagnostics t!"(module (;é;) (func $a (param i32)) (func $a (call $a) (i32.const é) (br 1)) (start ))\n(module)" (Red.root g) e = .done ds ∧
      ds.length = 7 := by
  have : (parse true t!"(module (;é;) (func $a (param i32)) (func $a (call $a) (i32.const é) (br 1)) (start ))\n(module)").test (fun g e _ =>
      match diagnostics t!"(module (;é;) (func $a (param i32)) (func $a (call $a) (i32.const é) (br 1)) (start ))\n(module)" (Red.root g) e with
      | .panic => false
      | .done ds => ds.length == 7) = true := by decide +kernel
  obtain ⟨g, e, d, h1, h2⟩ := ParseOut.of_test this
  refine ⟨g, e, d, h1, ?_⟩
  split at h2
  · cases h2
  · exact ⟨_, by assumption, by simpa using h2⟩

end Verif
