import Verif.Lemmas.Offsets
import Verif.Lemmas.Answered
import Verif.Lemmas.Blocks
import Verif.Props.C02
/-!
C08: a request at any position of a known document is answered without crashing.

Full statement (false of the code): for every document that was parsed and every position a client can send,
position-based requests do not panic.
-/
namespace Verif
open Spec

/-- Every request for the position `p` is answered (possibly with nothing), none crashes. -/
structure Spec.Answered (src : Text) (root : Red) (p : Pos) : Prop where
  definition : gotoDefinition src root p ≠ .panic
  typeDefinition : gotoTypeDefinition src root p ≠ .panic
  declaration : gotoDeclaration src root p ≠ .panic
  references : ∀ incl, findReferences src root p incl ≠ .panic
  prepareRename : prepareRename src root p ≠ .panic
  rename : ∀ name, rename src root p name ≠ .panic
  hover : hover src root p ≠ .panic
  completion : completion src root p ≠ .panic
  callHierarchy : prepareCalls src root p ≠ .panic
  selection : selectionRange src root [p] ≠ .panic

/-- Every request for the range `r` is answered (possibly with nothing), none crashes. -/
structure Spec.RangeAnswered (src : Text) (root : Red) (r : Range) : Prop where
  incoming : incomingCalls src root r ≠ .panic
  outgoing : outgoingCalls src root r ≠ .panic
  hints : inlayHints src root r ≠ .panic
  actions : ∀ only, codeActions src root only r ≠ .panic
  formatting : ∀ tab, rangeFormatting src root tab r ≠ .panic

/-- The full statement of C08. -/
def C08_statement : Prop :=
  ∀ (dbg : Bool) (src : Text) (g : Green) (errs : List Err) (dropped : Text), parse dbg src = .tree g errs dropped →
    (∀ (p : Pos), Answered src (Red.root g) p) ∧ ∀ (r : Range), RangeAnswered src (Red.root g) r

/-- The code violates C08: a column past the end of the last line (`(module)`, line 0, column 9) crashes it. -/
theorem C08_false : ¬ C08_statement := by
  intro h
  have : (parse false t!"(module)").test (fun g _ _ =>
      match gotoDefinition t!"(module)" (Red.root g) ⟨0, 9⟩ with
      | .panic => true
      | .done _ => false) = true := by decide +kernel
  obtain ⟨g, e, d, h1, h2⟩ := ParseOut.of_test this
  have h3 := ((h _ _ _ _ _ h1).1 ⟨0, 9⟩).definition
  cases ho : gotoDefinition t!"(module)" (Red.root g) ⟨0, 9⟩ with
  | panic => exact h3 ho
  | done o => rw [ho] at h2; cases h2

/-- The code violates C08 even at a position of the document, where the parser dropped text: the end of
`(module)`, form feed. -/
theorem C08_false_dropped : ¬ ∀ (dbg : Bool) (src : Text) (g : Green) (errs : List Err) (dropped : Text),
    parse dbg src = .tree g errs dropped → ∀ u v, src = u ++ v → gotoDefinition src (Red.root g) (posAfter u) ≠ .panic := by
  intro h
  have : (parse false t!"(module)\x0C").test (fun g _ _ =>
      match gotoDefinition t!"(module)\x0C" (Red.root g) (posAfter t!"(module)\x0C") with
      | .panic => true
      | .done _ => false) = true := by decide +kernel
  obtain ⟨g, e, d, h1, h2⟩ := ParseOut.of_test this
  have h3 := h _ _ _ _ _ h1 t!"(module)\x0C" [] rfl
  cases ho : gotoDefinition t!"(module)\x0C" (Red.root g) (posAfter t!"(module)\x0C") with
  | panic => exact h3 ho
  | done o => rw [ho] at h2; cases h2

/-- `p`, counted from the start of the line it names, is not after the first `len` bytes of the text; lines that do
not exist are fine. -/
def Spec.NotPast (src : Text) (len : Nat) (p : Pos) : Prop :=
  ∀ a b, src = a ++ b → a.count '\n' = p.line → lastLine a = [] → bytes a + p.character ≤ len

/-- C08 for sources without a bad quote and positions that do not point past the text held by the tree (columns past
the end of a line other than the last are fine).  Missing for the full claim: positions past the end (`C08_false`),
positions in dropped text (`C08_false_dropped`), sources with a bad quote (the offsets of the tree are then not the
offsets of the source). -/
theorem C08_partial (dbg : Bool) (src : Text) (g : Green) (errs : List Err) (dropped : Text)
    (h : parse dbg src = .tree g errs dropped) (hq : ¬ BadQuote src ∨ errs = []) (p : Pos) (hp : NotPast src (bytes g.text) p)  :
    Answered src (Red.root g) p := by
  have hs := parse_solid h
  have ht := C01_kept_partial dbg src g errs dropped hq h
  have hp' : ∀ off, offsetAt src p = some off → off ≤ (Red.root g).stop := by
    intro off ho
    obtain ⟨a, b, h1, h2, h3, rfl⟩ := offsetAt_split ho
    have := hp a b h1 h2 h3
    obtain ⟨cs, rfl⟩ := hs.root
    show _ ≤ 0 + bytes (Green.textL cs)
    rw [text_node] at this
    omega
  have aux : ∀ {α} {a : Ans α}, a.Ok → a ≠ .panic := by rintro α a ⟨b, rfl⟩ h; cases h
  have h0 := parse_valOk h
  have hr := parse_root_green h
  exact ⟨aux (gotoDefinition_ok hs ht hp'), aux (gotoTypeDefinition_ok hs ht hp'), aux (gotoDeclaration_ok hs ht hp'),
    fun incl => aux (findReferences_ok hs ht hp' incl), aux (prepareRename_ok hs ht hp'), fun name => aux (rename_ok hs ht hp' name),
    aux (hover_ok hs h0 hr ht hp'), aux (completion_ok hs h0 hr hp'), aux (prepareCalls_ok hs h0 hr ht hp'),
    aux (selectionRange_ok hs ht fun q hq => by rw [List.mem_singleton.mp hq]; exact hp')⟩

/-- C08 for ranges of the document, first position first, and sources without a bad quote. -/
theorem C08_range_partial (dbg : Bool) (src : Text) (g : Green) (errs : List Err) (dropped : Text)
    (h : parse dbg src = .tree g errs dropped) (hq : ¬ BadQuote src ∨ errs = []) (u w v : Text) (hu : src = u ++ w ++ v) :
    RangeAnswered src (Red.root g) ⟨posAfter u, posAfter (u ++ w)⟩ := by
  have hs := parse_solid h
  have ht := C01_kept_partial dbg src g errs dropped hq h
  have h0 := parse_valOk h
  have hr := parse_root_green h
  have aux : ∀ {α} {a : Ans α}, a.Ok → a ≠ .panic := by rintro α a ⟨b, rfl⟩ h; cases h
  have ha : (lspRangeToRowan src ⟨posAfter u, posAfter (u ++ w)⟩).Ok := by rw [hu]; exact ⟨_, lspRange_ok u w v⟩
  exact ⟨aux (incomingCalls_ok hs h0 hr ht ha), aux (outgoingCalls_ok hs h0 hr ht ha), aux (inlayHints_ok hs ht ha),
    fun only => aux (codeActions_ok hs ht only ha), fun tab => aux (rangeFormatting_ok hs ht tab ha)⟩

/-- The code violates C08 for ranges whose first position is before the second, when its column is past the end of its
line: `(0, 10)` to `(1, 0)` in `(module)`, newline. -/
theorem C08_false_range : ¬ ∀ (dbg : Bool) (src : Text) (g : Green) (errs : List Err) (dropped : Text),
    parse dbg src = .tree g errs dropped → ∀ r : Range, r.start.line < r.stop.line → inlayHints src (Red.root g) r ≠ .panic := by
  intro h
  have : (parse false t!"(module)\n").test (fun g _ _ =>
      match inlayHints t!"(module)\n" (Red.root g) ⟨⟨0, 10⟩, ⟨1, 0⟩⟩ with
      | .panic => true
      | .done _ => false) = true := by decide +kernel
  obtain ⟨g, e, d, h1, h2⟩ := ParseOut.of_test this
  have h3 := h _ _ _ _ _ h1 ⟨⟨0, 10⟩, ⟨1, 0⟩⟩ (by decide)
  cases ho : inlayHints t!"(module)\n" (Red.root g) ⟨⟨0, 10⟩, ⟨1, 0⟩⟩ with
  | panic => exact h3 ho
  | done o => rw [ho] at h2; cases h2

/-- The hypotheses of `C08_partial` for documents the parser reads completely: no form feed and readable strings, or no
errors; and the position is in the document. -/
theorem C08_document_partial (dbg : Bool) (src : Text) (g : Green) (errs : List Err) (dropped : Text)
    (h : parse dbg src = .tree g errs dropped) (hc : '\x0C' ∉ src ∧ (∀ a b, src = a ++ '"' :: b → Readable b) ∨ errs = [])
    (u v : Text) (hu : src = u ++ v)  :
    Answered src (Red.root g) (posAfter u) := by
  have ht := C02_kept_partial dbg src g errs dropped hc h
  refine C08_partial dbg src g errs dropped h (hc.imp_left fun hc ⟨a, b, he, hb, _⟩ => hb (hc.2 a b he)) _ ?_
  intro a b h1 h2 h3
  have k1 := offsetAt_eq u v
  have k2 := offsetAt_eq a b
  rw [← hu] at k1
  rw [← h1] at k2
  have hb : bytes g.text = bytes u + bytes v := by rw [ht.1, hu, bytes_append]
  have k3 : offsetAt src ⟨a.count '\n', (posAfter u).character⟩ = some (bytes a + (posAfter u).character) := by
    unfold offsetAt at k2 ⊢
    obtain ⟨s, k4, k5⟩ := Option.map_eq_some_iff.mp k2
    unfold posAfter at k4 k5
    rw [h3] at k5
    simp only [bytes_nil] at k5
    simp only [k4, Option.map_some, Option.some.injEq]
    omega
  have k6 : (⟨a.count '\n', (posAfter u).character⟩ : Pos) = posAfter u := by
    rw [h2]
  rw [k6, k1] at k3
  have := Option.some.inj k3
  omega

/-- Non-trivial case: a column past the end of the first of two lines, in a document with a string and a comment. -/
example : ∃ g e d, parse true t!"(module (data \"x\")\n (func $f (call $f))) ;; c" = .tree g e d ∧
    NotPast t!"(module (data \"x\")\n (func $f (call $f))) ;; c" (bytes g.text) ⟨0, 35⟩ := by
  have : (parse true t!"(module (data \"x\")\n (func $f (call $f))) ;; c").test (fun g _ _ => decide (35 ≤ bytes g.text)) = true := by
    decide +kernel
  obtain ⟨g, e, d, h1, h2⟩ := ParseOut.of_test this
  refine ⟨g, e, d, h1, fun a b he hc hl => ?_⟩
  have : a = [] := by
    rcases lastLine_cases a with ⟨_, h3⟩ | ⟨x, h3, _⟩
    · rw [hl] at h3; exact h3.symm
    · rw [h3] at hc; simp at hc
  subst this
  simpa [bytes_nil] using h2

/-- Kinds of symbols that are looked up: the left operand of `is_defined_by` at every call (binder.rs:501-551,
undef.rs:40, references.rs:55-326, call_hierarchy.rs:123). -/
def Spec.usesName : SymKind → Bool
  | .call | .typeUse | .globalRef | .memoryRef | .tableRef | .localRef | .blockRef => true
  | _ => false

/-- Kinds of symbols that are found: the right operand of `is_defined_by` at every call. -/
def Spec.givesName : SymKind → Bool
  | .func | .param | .local | .type | .globalDef | .memoryDef | .tableDef | .blockDef => true
  | _ => false

/-- The two assertions of a development build at the head of `is_defined_by` (idx.rs:23-24) cannot fail: a symbol that
uses a name has either a number or a name and not both, a symbol that gives one has a number, and so has every
recorded branch target. -/
theorem C08_asserts (dbg : Bool) (src : Text) (g : Green) (errs : List Err) (dropped : Text)
    (h : parse dbg src = .tree g errs dropped) :
    (∀ s ∈ (symbolTable (Red.root g)).symbols,
      (usesName s.kind = true → (s.idx.num = none ↔ s.idx.name ≠ none)) ∧
      (givesName s.kind = true → s.idx.num ≠ none)) ∧
    ∀ b ∈ (symbolTable (Red.root g)).blocks, b.idx.num ≠ none := by
  have hs := parse_solid h
  refine ⟨fun s hm => ?_, fun b hb => ?_⟩
  · obtain ⟨x, hx⟩ := (mem_symbols_iff hs).mp hm
    cases hx with
    | module _ => exact ⟨fun h => (by cases h), fun h => (by cases h)⟩
    | field _ _ _ => exact ⟨fun h => (by rename_i sp _ _ _; cases sp <;> cases h), fun _ => (by simp)⟩
    | slot _ _ _ =>
      refine ⟨fun h => ?_, fun _ => by simp⟩
      dsimp only at h
      split at h <;> cases h
    | ref _ _ _ _ =>
      rename_i r sp i _ _ _ _
      refine ⟨fun _ => by cases i <;> simp [Spec.Index.toIdx], fun h => ?_⟩
      cases sp <;> cases h
    | block _ _ _ => exact ⟨fun h => (by cases h), fun _ => (by simp)⟩
  · obtain ⟨_, _, _, _, _, _, rfl⟩ := (mem_blocks hs).mp hb
    simp

/-- Non-trivial case: a document with a call by name, a branch by number and one to an undefined label. -/
example : ∃ g e d, parse true t!"(module (func $f (param $x i32) (block $b (br 0) (br $c)) (call $f)))" = .tree g e d ∧
    (symbolTable (Red.root g)).symbols.length = 7 ∧ (symbolTable (Red.root g)).blocks.length = 2 := by
  have : (parse true t!"(module (func $f (param $x i32) (block $b (br 0) (br $c)) (call $f)))").test (fun g _ _ =>
      (symbolTable (Red.root g)).symbols.length == 7 && (symbolTable (Red.root g)).blocks.length == 2) = true := by
    decide +kernel
  obtain ⟨g, e, d, h1, h2⟩ := ParseOut.of_test this
  rw [Bool.and_eq_true, beq_iff_eq, beq_iff_eq] at h2
  exact ⟨g, e, d, h1, h2.1, h2.2⟩

end Verif
