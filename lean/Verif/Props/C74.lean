import Verif.Lemmas.SameCalls
import Verif.Props.C70
/-!
C74: formatting keeps the call hierarchy: every function has the same incoming and outgoing calls, in the same order, with the same
names and details and at corresponding places.  More generally, so does every change of white space and comments.

Full statement (false of the code): for every document without syntax errors, every setting of the formatter and every layout.
-/
namespace Verif
open Spec

/-- The full statement of C74: the formatted document has no syntax errors, and its calls are those of the document. -/
def C74_statement : Prop :=
  ∀ (o : FmtOpts) (lb : Text) (dbg : Bool) (src : Text) (g : Green) (d out : Text), parse dbg src = .tree g [] d →
    IsLineBreak lb → Prints lb (format o g) out → ∃ g', parse dbg out = .tree g' [] [] ∧ SameHierarchy g g' src out

/-- The statement is false: behind an unclosed string the formatted document has syntax errors. -/
theorem C74_false : ¬ C74_statement := by
  intro h
  obtain ⟨g, d, out, h1, h2, h3⟩ := C70_string
  obtain ⟨g', h4, _⟩ := h {} _ _ _ _ _ _ h1 (.inl rfl) h2
  exact h3 g' [] h4

/-- Two documents without syntax errors that differ in white space and comments only have the same calls. -/
theorem C74_layout (dbg dbg' : Bool) (src src' : Text) (g g' : Green) (d d' : Text) (h : parse dbg src = .tree g [] d)
    (h' : parse dbg' src' = .tree g' [] d') (he : strip g = strip g') : SameHierarchy g g' src src' := by
  obtain ⟨_, c⟩ := checked h
  obtain ⟨_, c'⟩ := checked h'
  exact Stripped.same_hierarchy (parse_solid h) (parse_solid h') c.derived c'.derived he (parse_valOk h) (parse_valOk h')
    (parse_root_green h) (parse_root_green h') (C01_kept_partial _ _ _ _ _ (.inr rfl) h) (C01_kept_partial _ _ _ _ _ (.inr rfl) h')

/-- C74 for documents whose tokens are those of programs (`TokensFine`, see C65), without the constructs the formatter loses
tokens of and without ignore comments (`Spec.Plain`): whatever the settings and the layout.  Missing for the full claim: the
other documents without syntax errors (false for strings that are not closed, `C74_false`). -/
theorem C74_partial (o : FmtOpts) (lb : Text) (dbg dbg' : Bool) (src : Text) (g : Green) (d out : Text)
    (h : parse dbg src = .tree g [] d) (hg : TokensFine g) (hp : Plain o.directive g) (hlb : IsLineBreak lb)
    (ho : Prints lb (format o g) out) : ∃ g', parse dbg' out = .tree g' [] [] ∧ SameHierarchy g g' src out := by
  obtain ⟨g', h1, h2⟩ := C57_partial o lb dbg dbg' src g d out h ((C65_partial _ _ _ _ h).mpr hg) hp hlb ho
  exact ⟨g', h1, C74_layout _ _ _ _ _ _ _ _ h h1 h2.symm⟩

/-- The same for every text with the tokens of the document, whatever is between them. -/
theorem C74_text_partial (dbg dbg' : Bool) (src : Text) (g : Green) (d out : Text) (h : parse dbg src = .tree g [] d)
    (hg : TokensFine g) (ho : Lexes out (lexemes g)) : ∃ g', parse dbg' out = .tree g' [] [] ∧ SameHierarchy g g' src out := by
  obtain ⟨g', h1, h2⟩ := C56_partial dbg' out (strip g) ((C65_partial _ _ _ _ h).mpr hg) (by rw [lexemes_strip]; exact ho)
  exact ⟨g', h1, C74_layout _ _ _ _ _ _ _ _ h h1 h2.symm⟩

/-- The same for the formatting of a range, with the conditions of `C68_partial`. -/
theorem C74_range_partial (tab : Nat) (dbg dbg' : Bool) (src : Text) (g : Green) (d : Text) (r : Range) (e : DocEdit) (out : Text)
    (h : parse dbg src = .tree g [] d) (hg : TokensFine g) (ha : TokensApart g) (hp : Plain (serviceOpts tab).directive g)
    (he : rangeFormatting src (Red.root g) tab r = .done (some e)) (ho : Prints ['\n'] e.doc out) :
    ∃ g', parse dbg' (applyEdits [asEdit ⟨e.range, out⟩] src) = .tree g' [] [] ∧
      SameHierarchy g g' src (applyEdits [asEdit ⟨e.range, out⟩] src) := by
  obtain ⟨g', h1, h2, _⟩ := C68_partial tab dbg dbg' src g d r e out h hg ha hp he ho
  exact ⟨g', h1, C74_layout _ _ _ _ _ _ _ _ h h1 h2.symm⟩

/-- The document of the example. -/
def C74_doc : Text := t!"(module(func $a(param i32)(call $b);; c\n(drop(call $b)))(func $b(result i32)(call 1)))"

/-- Non-trivial case: `$a` calls `$b` twice, `$b` calls itself by number, and there is a comment. -/
example : ∃ g d, parse true C74_doc = .tree g [] d ∧ TokensFine g ∧ Plain t!"fmt-ignore" g ∧
    ∃ out g', Prints ['\n'] (format {} g) out ∧ parse true out = .tree g' [] [] ∧ g' ≠ g ∧ SameHierarchy g g' C74_doc out ∧
      ∃ (i : Nat) (f f' m : Red) (k : Nat) (r r' : Range) (es es' : List CallEntry), (Red.root g).descendants[i]? = some f ∧
        (Red.root g').descendants[i]? = some f' ∧ IsFunc g m k f ∧
        IsRange C74_doc (f.start, f.stop) r ∧ IsRange out (f'.start, f'.stop) r' ∧
        incomingCalls C74_doc (Red.root g) r = .done (some es) ∧ incomingCalls out (Red.root g') r' = .done (some es') ∧
        es.map (fun e => (e.item.name, e.item.detail)) =
          [(t!"$a", t!"(func $a (param i32))"), (t!"$a", t!"(func $a (param i32))"), (t!"$b", t!"(func $b (result i32))")] ∧
        SameCalls g g' C74_doc out es es' := by
  have : (parse true C74_doc).test (fun g e _ => e.isEmpty && plainCheck g && (strip g).kind == .ROOT && wfB (strip g) &&
      broken ['\n'] (format {} g) != g.text &&
      (match (Red.root g).children with
       | [m] => match fields m with
          | [_, f] => f.kind == .MODULE_FIELD_FUNC &&
              match rowanRangeToLsp C74_doc f.start f.stop with
              | some r => match incomingCalls C74_doc (Red.root g) r with
                | .done (some es) => es.map (fun e => (e.item.name, e.item.detail)) ==
                    [(t!"$a", t!"(func $a (param i32))"), (t!"$a", t!"(func $a (param i32))"), (t!"$b", t!"(func $b (result i32))")]
                | _ => false
              | none => false
          | _ => false
       | _ => false)) = true := by decide +kernel
  obtain ⟨g, e, d, h1, h2⟩ := ParseOut.of_test this
  simp only [Bool.and_eq_true, List.isEmpty_iff, beq_iff_eq, bne_iff_ne] at h2
  obtain ⟨⟨⟨⟨⟨rfl, h2⟩, h3⟩, h4⟩, h6⟩, h9⟩ := h2
  have hf := (C65_partial _ _ _ _ h1).mp ⟨h3, wfB_sound _ h4⟩
  have ho := prints_broken ['\n'] _ (C52_format _ _ _ _ _ h1 {} ['\n']).1
  obtain ⟨g', h7, hcalls⟩ := C74_partial {} _ true true _ _ _ _ h1 hf (plainCheck_plain h2) (.inl rfl) ho
  split at h9
  · rename_i m hm
    split at h9
    · rename_i f0 f hfs
      rw [Bool.and_eq_true, beq_iff_eq] at h9
      obtain ⟨hk, h9⟩ := h9
      split at h9
      · rename_i r hr
        split at h9
        · rename_i es hes
          have hfun : IsFunc g m 1 f := ⟨by rw [hm]; simp, by rw [hfs]; rfl, by rw [hk]; rfl⟩
          have hsol := parse_solid h1
          obtain ⟨i, hi⟩ := List.mem_iff_getElem?.mp ((IsFunc.sym hfun).inTree hsol).1
          have hl := hcalls.1
          obtain ⟨hlt, _⟩ := List.getElem?_eq_some_iff.mp hi
          obtain ⟨r1, r', a1, a2, _, es1, es', a3, a4, a5⟩ :=
            (hcalls.2 i f _ hi (List.getElem?_eq_getElem (by rw [← hl]; exact hlt))).2 m 1 hfun
          have hr1 : r1 = r := by
            have := rowanRangeToLsp_iff.mpr a1
            rw [hr] at this
            exact (Option.some.inj this).symm
          subst hr1
          rw [hes] at a3
          cases a3
          refine ⟨g, d, h1, hf, plainCheck_plain h2, _, g', ho, h7, ?_, hcalls, i, f, _, m, 1, r1, r', es, es', hi,
            List.getElem?_eq_getElem (by rw [← hl]; exact hlt), hfun, a1, a2, hes, a4, eq_of_beq h9, a5⟩
          rintro rfl
          have := C01_kept_partial true _ g' [] [] (.inr rfl) h7
          rw [List.append_nil] at this
          exact h6 this.symm
        · cases h9
      · cases h9
    · cases h9
  · cases h9

end Verif
