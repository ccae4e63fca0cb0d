import Verif.Lemmas.Relabel
import Verif.Lemmas.ProgramCheck
import Verif.Lemmas.Action
import Verif.Lemmas.CleanRename
import Verif.Props.C01
/-!
C60: a document stays well-formed under renaming.

Full statement: when a document without syntax errors is renamed, the edited document has no syntax errors, and its tree
is that of the original document, white space and comments left out, with the new name at the places that are edited.
-/
namespace Verif
open Spec

/-- An edit begins at this offset of the document. -/
def EditedAt (src : Text) (es : List TextEdit) (off : Nat) : Prop := ∃ e ∈ es, ∃ stop, IsRange src (off, stop) e.range

/-- The full statement of C60. -/
def C60_statement : Prop :=
  ∀ (dbg : Bool) (src : Text) (g : Green) (d : Text) (p : Pos) (name : Text) (es : List TextEdit),
    parse dbg src = .tree g [] d → rename src (Red.root g) p name = .done (.edits (some es)) →
    ∃ (places : Nat → Bool) (g' : Green), (∀ off, places off = true ↔ EditedAt src es off) ∧
      parse dbg (applyEdits (es.map asEdit) src) = .tree g' [] [] ∧ strip g' = strip (relabel places name 0 g)

/-- C60 for documents whose tree is a program (`Spec.Program`) and whose tokens are apart (`Spec.TokensApart`).  Missing for
the full claim: documents without syntax errors that are not programs in this sense, and those in which words touch each
other. -/
theorem C60_partial (dbg : Bool) (src : Text) (g : Green) (d : Text) (p : Pos) (name : Text) (es : List TextEdit)
    (h : parse dbg src = .tree g [] d) (hp : Program (strip g)) (ha : TokensApart g)
    (hr : rename src (Red.root g) p name = .done (.edits (some es))) :
    ∃ (places : Nat → Bool) (g' : Green), (∀ off, places off = true ↔ EditedAt src es off) ∧
      parse dbg (applyEdits (es.map asEdit) src) = .tree g' [] [] ∧ strip g' = strip (relabel places name 0 g) := by
  have hs := parse_solid h
  obtain ⟨rfl, cs, hg, _⟩ := C54_partial dbg src g d h
  have hn : IsIdent name := Classical.byContradiction fun hc => by
    have := (C19_partial src (Red.root g) p name).mpr hc
    rw [hr] at this
    cases this
  obtain ⟨_, _, _, toks, _, _, _, _, _, h5, h6⟩ := rename_elim hr
  obtain ⟨_, h8⟩ := renamed_disjoint hs h5
  have hshape := C06_token_shapes _ _ _ _ _ h
  -- the tree of a program has no error token, and its strings are closed
  have hgood : ∀ kt ∈ g.toks, TokGood kt := good_toks hshape hp
  let places : Nat → Bool := fun off => toks.any fun t => t.off == off
  have htext : g.text ++ [] = src := by rw [List.append_nil, C01_clean_partial dbg src g [] h]
  have hmem : ∀ e ∈ es, ∃ t ∈ toks, IsRange src (t.off, t.stop) e.range ∧ e.newText = name := by
    intro e he
    have hm : (Ans.done e : Ans TextEdit) ∈ es.map .done := List.mem_map.mpr ⟨e, he, rfl⟩
    rw [← h6] at hm
    obtain ⟨t, ht, h9⟩ := List.mem_map.mp hm
    exact ⟨t, ht, edit_of_tok h9⟩
  have hall : ∀ t ∈ toks, ∃ e ∈ es, IsRange src (t.off, t.stop) e.range := by
    intro t ht
    have hm := List.mem_map_of_mem (f := fun tk : Tok => (Ans.ofOption (rowanRangeToLsp src tk.off tk.stop)).bind fun r =>
      .done (⟨r, name⟩ : TextEdit)) ht
    rw [h6] at hm
    obtain ⟨e, he, h9⟩ := List.mem_map.mp hm
    exact ⟨e, he, (edit_of_tok h9.symm).1⟩
  have hedits : TokEdits src (Red.root g).tokens (fun t => if t.kind == .IDENT && places t.off then some name else none) es := by
    constructor
    · intro e he
      obtain ⟨t, ht, h9, h10⟩ := hmem e he
      refine ⟨t, (h8 t ht).1, h9, ?_⟩
      have : places t.off = true := List.any_eq_true.mpr ⟨t, ht, beq_self_eq_true t.off⟩
      simp [(h8 t ht).2, this, h10]
    · intro t ht n hn'
      split at hn'
      · rename_i hany
        simp only [Bool.and_eq_true] at hany
        obtain ⟨u, hu, he⟩ := List.any_eq_true.mp hany.2
        have := InTree.off_inj hs (h8 u hu).1 ht (beq_iff_eq.mp he)
        subst this
        exact hall u hu
      · cases hn'
  have hsame : ∀ off, places off = true ↔ EditedAt src es off := by
    intro off
    constructor
    · intro ho
      obtain ⟨u, hu, he⟩ := List.any_eq_true.mp ho
      obtain ⟨e, he1, he2⟩ := hall u hu
      rw [← beq_iff_eq.mp he]
      exact ⟨e, he1, _, he2⟩
    · rintro ⟨e, he, stop, ⟨a, b, e1, e2, e3⟩, _⟩
      obtain ⟨t, ht, ⟨⟨a', b', f1, f2, f3⟩, _⟩, _⟩ := hmem e he
      have := posAfter_inj e1 f1 (e3.symm.trans f3)
      refine List.any_eq_true.mpr ⟨t, ht, beq_iff_eq.mpr ?_⟩
      simp only at e2 f2
      omega
  have hout : applyEdits (es.map asEdit) src = ((retok places name 0 g.toks).map (·.2)).flatten := by
    rw [apply_tokens hs htext hedits, retok_texts (fun _ => rfl) _ 0 (tokens_lined hs).1, List.append_nil]
    subst hg
    rw [Red.tokens_text]
  have hlike : Like g (relabel places name 0 g) := relabel_like hn g 0 hshape
  have hlex : Lexes (applyEdits (es.map asEdit) src) (lexemes (strip (relabel places name 0 g))) := by
    rw [lexemes_strip, lexemes, relabel_toks, hout]
    have := retok_like (F := places) hn g.toks 0 hshape
    exact lexes_toks (this.good hgood) (this.chain (chain_of_apart h ha))
  obtain ⟨g', h9, h10⟩ := parse_accepts dbg ⟨hlike.strip.kind.trans hp.1, hlike.strip.wf hp.2⟩ hlex
  exact ⟨places, g', hsame, h9, h10⟩

/-- C60 for every document whose identifiers have no backslash, when the new name has none, even for documents with syntax errors
(unless text of theirs is lost, see C01): the edited document has as many syntax errors, drops the same text at its end, and
its tree is that of the original document, white space and comments included, with the new name at the places that are edited.
In particular, words may touch each other, and strings may hold what the standard forbids.  Missing for the full claim: names
with a backslash (in a text with a quote before the name they can be read as an escape). -/
theorem C60_names_partial (dbg : Bool) (src : Text) (g : Green) (errs : List Err) (d : Text) (p : Pos) (name : Text) (es : List TextEdit)
    (h : parse dbg src = .tree g errs d) (hq : ¬ BadQuote src ∨ errs = []) (hn : '\\' ∉ name)
    (hi : ∀ t, (Kind.IDENT, t) ∈ g.toks → '\\' ∉ t) (hr : rename src (Red.root g) p name = .done (.edits (some es))) :
    ∃ (places : Nat → Bool) (errs' : List Err), (∀ off, places off = true ↔ EditedAt src es off) ∧
      parse dbg (applyEdits (es.map asEdit) src) = .tree (relabel places name 0 g) errs' d ∧ errs'.length = errs.length := by
  have hname : IsIdent name := Classical.byContradiction fun hc => by
    have := (C19_partial src (Red.root g) p name).mpr hc
    rw [hr] at this
    cases this
  have htext := C01_kept_partial dbg src g errs d hq h
  obtain ⟨places, h1, h2⟩ := rename_applied h htext hr
  obtain ⟨errs', h3, h4⟩ := Sim.parse_relabel (F := places) h htext (Sim.nameText hname (fun _ => hn))
    fun t ht => Sim.nameText (C06_token_shapes _ _ _ _ _ h _ ht) (fun _ => hi t ht)
  exact ⟨places, errs', h1, by rw [h2]; exact h3, h4⟩

/-- The full claim, for every document whose identifiers have no backslash, when the new name has none. -/
theorem C60_plain_partial (dbg : Bool) (src : Text) (g : Green) (d : Text) (p : Pos) (name : Text) (es : List TextEdit)
    (h : parse dbg src = .tree g [] d) (hn : '\\' ∉ name) (hi : ∀ t, (Kind.IDENT, t) ∈ g.toks → '\\' ∉ t)
    (hr : rename src (Red.root g) p name = .done (.edits (some es))) :
    ∃ (places : Nat → Bool) (g' : Green), (∀ off, places off = true ↔ EditedAt src es off) ∧
      parse dbg (applyEdits (es.map asEdit) src) = .tree g' [] [] ∧ strip g' = strip (relabel places name 0 g) := by
  obtain ⟨rfl, _⟩ := C54_partial dbg src g d h
  obtain ⟨places, errs', h1, h2, h3⟩ := C60_names_partial dbg src g [] [] p name es h (.inr rfl) hn hi hr
  have : errs' = [] := List.eq_nil_of_length_eq_zero h3
  subst this
  exact ⟨places, _, h1, h2, rfl⟩

/-- C60 in full, and more: the edited document has no syntax errors, drops no text, and its tree is that of the original
document, white space and comments included, with the new name at the places that are edited. -/
theorem C60_exact (dbg : Bool) (src : Text) (g : Green) (d : Text) (p : Pos) (name : Text) (es : List TextEdit)
    (h : parse dbg src = .tree g [] d) (hr : rename src (Red.root g) p name = .done (.edits (some es))) :
    ∃ places : Nat → Bool, (∀ off, places off = true ↔ EditedAt src es off) ∧
      parse dbg (applyEdits (es.map asEdit) src) = .tree (relabel places name 0 g) [] [] := by
  obtain ⟨rfl, _⟩ := C54_partial dbg src g d h
  have hname : IsIdent name := Classical.byContradiction fun hc => by
    have := (C19_partial src (Red.root g) p name).mpr hc
    rw [hr] at this
    cases this
  have htext := C01_kept_partial dbg src g [] [] (.inr rfl) h
  obtain ⟨places, h1, h2⟩ := rename_applied h htext hr
  rw [List.append_nil] at htext h2
  refine ⟨places, h1, ?_⟩
  rw [h2]
  exact Clean.parse_relabel h htext (Sim.nameText hname fun h => by cases h) fun t ht =>
    Sim.nameText (C06_token_shapes _ _ _ _ _ h _ ht) fun h => by cases h

/-- C60 in full. -/
theorem C60 : C60_statement := by
  intro dbg src g d p name es h hr
  obtain ⟨places, h1, h2⟩ := C60_exact dbg src g d p name es h hr
  exact ⟨places, _, h1, h2, rfl⟩

/-- The example: a document with strings, with escapes in them, in which names have backslashes. -/
def C60_escapes : Text := t!"(module (import \"\\\"a\" \"$\\f\" (func $\\f)) (;\";) (export\"\\22\"(func $\\f));; $\\f\n)"

/-- Non-trivial case: the document has no syntax errors; the name `$\f` stands between strings and is changed
to `$\\` at two places. -/
example : ∃ g es, parse true C60_escapes = .tree g [] [] ∧ (Kind.IDENT, t!"$\\f") ∈ g.toks ∧
    rename C60_escapes (Red.root g) ⟨0, 35⟩ t!"$\\\\" = .done (.edits (some es)) ∧ es.length = 2 ∧
    ∃ places : Nat → Bool, parse true (applyEdits (es.map asEdit) C60_escapes) = .tree (relabel places t!"$\\\\" 0 g) [] [] := by
  have : (parse true C60_escapes).test (fun g e d => e.isEmpty && d.isEmpty && g.toks.contains (.IDENT, t!"$\\f") &&
      match rename C60_escapes (Red.root g) ⟨0, 35⟩ t!"$\\\\" with
      | .done (.edits (some es)) => es.length == 2
      | _ => false) = true := by decide +kernel
  obtain ⟨g, e, d, h1, h2⟩ := ParseOut.of_test this
  simp only [Bool.and_eq_true, List.isEmpty_iff, List.contains_iff_mem] at h2
  obtain ⟨⟨⟨rfl, rfl⟩, h3⟩, h4⟩ := h2
  split at h4
  · rename_i es hes
    obtain ⟨places, _, h5⟩ := C60_exact true _ g [] _ _ es h1 hes
    exact ⟨g, es, h1, h3, hes, beq_iff_eq.mp h4, places, h5⟩
  · cases h4

/-- `C60_exact` and `C60_names_partial` together: the edited document is read as the original one, for all names if there are
no syntax errors, and otherwise for names without backslashes, unless text is lost. -/
theorem C60_reads_partial (dbg : Bool) (src : Text) (g : Green) (errs : List Err) (d : Text) (p : Pos) (name : Text) (es : List TextEdit)
    (h : parse dbg src = .tree g errs d)
    (hq : errs = [] ∨ (¬ BadQuote src ∧ '\\' ∉ name ∧ ∀ t, (Kind.IDENT, t) ∈ g.toks → '\\' ∉ t))
    (hr : rename src (Red.root g) p name = .done (.edits (some es))) :
    ∃ (places : Nat → Bool) (errs' : List Err), (∀ off, places off = true ↔ EditedAt src es off) ∧
      parse dbg (applyEdits (es.map asEdit) src) = .tree (relabel places name 0 g) errs' d ∧ errs'.length = errs.length := by
  rcases hq with rfl | ⟨h1, h2, h3⟩
  · obtain ⟨places, h1, h2⟩ := C60_exact dbg src g d p name es h hr
    obtain ⟨rfl, _⟩ := C54_partial dbg src g d h
    exact ⟨places, [], h1, h2, rfl⟩
  · exact C60_names_partial dbg src g errs d p name es h (.inl h1) h2 h3 hr

/-- The example: a document in which a word and a string touch each other. -/
def C60_touching : Text := t!"(module (func $f)(export\"a\"(func $f)))"

/-- Non-trivial case: the document has no syntax errors, and its name is edited at two places. -/
example : ∃ g es, parse true C60_touching = .tree g [] [] ∧ ¬ TokensApart g ∧
    (∀ t, (Kind.IDENT, t) ∈ g.toks → '\\' ∉ t) ∧
    rename C60_touching (Red.root g) ⟨0, 14⟩ t!"$long" = .done (.edits (some es)) ∧ es.length = 2 := by
  have : (parse true C60_touching).test (fun g e d => e.isEmpty && d.isEmpty &&
      g.toks.all (fun t => t.1 != .IDENT || !t.2.contains '\\') &&
      decide (g.toks = g.toks.take 9 ++ (.KEYWORD, t!"export") :: (.STRING, t!"\"a\"") :: g.toks.drop 11) &&
      match rename C60_touching (Red.root g) ⟨0, 14⟩ t!"$long" with
      | .done (.edits (some es)) => es.length == 2
      | _ => false) = true := by decide +kernel
  obtain ⟨g, e, d, h1, h2⟩ := ParseOut.of_test this
  simp only [Bool.and_eq_true, List.isEmpty_iff, decide_eq_true_eq] at h2
  obtain ⟨⟨⟨⟨rfl, rfl⟩, h3⟩, h4⟩, h5⟩ := h2
  split at h5
  · rename_i es hes
    refine ⟨g, es, h1, fun ha => (ha _ _ _ _ h4).1 ⟨by decide, by decide⟩, fun t ht hc => ?_, hes, beq_iff_eq.mp h5⟩
    have := List.all_eq_true.mp h3 _ ht
    simp [hc] at this
  · cases h5

/-- The example: a document with syntax errors. -/
def C60_broken : Text := t!"(module (func $f(param $x i32)drop$x $x)(start $f 5) (elem $f"

/-- Non-trivial case: the name `$f` of this document is edited at two places; the errors are as many as before. -/
example : ∃ g errs es, parse true C60_broken = .tree g errs [] ∧ errs ≠ [] ∧
    rename C60_broken (Red.root g) ⟨0, 14⟩ t!"$long" = .done (.edits (some es)) ∧ es.length = 2 ∧
    ∃ (places : Nat → Bool) (errs' : List Err),
      parse true (applyEdits (es.map asEdit) C60_broken) = .tree (relabel places t!"$long" 0 g) errs' [] ∧
      errs'.length = errs.length := by
  have : (parse true C60_broken).test (fun g e d => !e.isEmpty && d.isEmpty &&
      g.toks.all (fun t => t.1 != .IDENT || !t.2.contains '\\') &&
      match rename C60_broken (Red.root g) ⟨0, 14⟩ t!"$long" with
      | .done (.edits (some es)) => es.length == 2
      | _ => false) = true := by decide +kernel
  obtain ⟨g, e, d, h1, h2⟩ := ParseOut.of_test this
  simp only [Bool.and_eq_true, List.isEmpty_iff, Bool.not_eq_true', List.isEmpty_eq_false_iff] at h2
  obtain ⟨⟨⟨h2, rfl⟩, h3⟩, h4⟩ := h2
  split at h4
  · rename_i es hes
    have hq : ¬ BadQuote C60_broken := by
      rintro ⟨a, b, h, _⟩
      have : '"' ∈ C60_broken := by rw [h]; simp
      revert this; decide
    have hi : ∀ t, (Kind.IDENT, t) ∈ g.toks → '\\' ∉ t := by
      intro t ht hc
      have := List.all_eq_true.mp h3 _ ht
      simp [hc] at this
    obtain ⟨places, errs', _, h5, h6⟩ := C60_names_partial true _ g e [] _ _ es h1 (.inl hq) (by decide) hi hes
    exact ⟨g, e, es, h1, h2, hes, beq_iff_eq.mp h4, places, errs', h5, h6⟩
  · cases h4

/-- The example: a source up to the cursor and after it. -/
def C60_pre : Text := t!"(module (;a;) (func $f (param $x i32)\n  local.get $x ;; $x\n) (func (call "
def C60_post : Text := t!"$f (i32.const 1))))"

/-- Non-trivial case: a document with comments, a declaration and a use of the name; the edits give a document without syntax
errors. -/
example : ∃ g es, parse true (C60_pre ++ C60_post) = .tree g [] [] ∧ Program (strip g) ∧ TokensApart g ∧
    rename (C60_pre ++ C60_post) (Red.root g) (posAfter C60_pre) t!"$long" = .done (.edits (some es)) ∧ es.length = 2 ∧
    ∃ g', parse true (applyEdits (es.map asEdit) (C60_pre ++ C60_post)) = .tree g' [] [] := by
  have : (parse true (C60_pre ++ C60_post)).test (fun g e d => e.isEmpty && d.isEmpty && (strip g).kind == .ROOT &&
      wfB (strip g) && tokApartB g.toks &&
      match rename (C60_pre ++ C60_post) (Red.root g) (posAfter C60_pre) t!"$long" with
      | .done (.edits (some es)) => es.length == 2
      | _ => false) = true := by decide +kernel
  obtain ⟨g, e, d, h1, h2⟩ := ParseOut.of_test this
  simp only [Bool.and_eq_true, List.isEmpty_iff, beq_iff_eq] at h2
  obtain ⟨⟨⟨⟨⟨rfl, rfl⟩, h3⟩, h4⟩, h5⟩, h6⟩ := h2
  split at h6
  · rename_i es hes
    have hp : Program (strip g) := ⟨h3, wfB_sound _ h4⟩
    have ha : TokensApart g := tokApartB_sound h5
    obtain ⟨_, g', _, h7, _⟩ := C60_partial true _ g [] _ _ es h1 hp ha hes
    exact ⟨g, es, h1, hp, ha, hes, beq_iff_eq.mp h6, g', h7⟩
  · cases h6

end Verif
