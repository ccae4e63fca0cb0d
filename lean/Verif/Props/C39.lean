import Verif.Lemmas.Completion
/-!
C39: completion at an index offers exactly the declarations in scope of the expected kind, in index order.

The full statement is false of the code in three ways.  Entities without a name are offered by a number that counts the
entities of all kinds of the module (as in C12), the label of an `if` is offered in its condition, and there is no
completion in the memory of a data segment and in the indices of element segments.
-/
namespace Verif
open Spec

/-- The full statement of C39. -/
def C39_statement : Prop :=
  ∀ (dbg : Bool) (src : Text) (g : Green) (errs : List Err) (dropped : Text), parse dbg src = .tree g errs dropped →
    ∀ (u v : Text), src = u ++ v → ∀ (t : Tok) (x : Red) (sp : Space), BeingTyped (Red.root g) (bytes u) t → t.parent = some x →
    Expects x sp → ∃ items, completion src (Red.root g) (posAfter u) = .done (some items) ∧
      items.map CmpItem.shows = choices (t.text.head? == some '$') (declarations sp x)

/-- For locals completion offers exactly the parameters and locals of the function around, in index order, each with
its declared type. -/
theorem C39_local (dbg : Bool) (src : Text) (g : Green) (errs : List Err) (dropped : Text)
    (h : parse dbg src = .tree g errs dropped) (u v : Text) (hu : src = u ++ v) (t : Tok) (x : Red)
    (ht : BeingTyped (Red.root g) (bytes u) t) (hx : t.parent = some x) (hr : RefersTo x .local) :
    ∃ items, completion src (Red.root g) (posAfter u) = .done (some items) ∧
      items.map CmpItem.shows = choices (t.text.head? == some '$') (declarations .local x) ∧
      items.map CmpItem.detail =
        (offered (t.text.head? == some '$') (declarations .local x)).map fun d => (declaredType d).bind typeName := by
  subst hu
  have hs := parse_solid h
  obtain ⟨x', h1, hxt, _⟩ := tok_parent ht.mem
  rw [hx] at h1; cases h1
  have hctx : cmpCtx t = [.local] := by
    apply cmpCtx_expects hs hxt hx (.ref hr)
    intro p hp
    rcases refersTo_elim hr with ⟨p', n, hp', hk, _⟩ | ⟨p', _, _, _, hk⟩
    · rw [hp] at hp'; cases hp'; rw [hk]; decide
    · exact absurd (congrFun hk .MODULE) (by decide)
  have henc : (t.enclosing fun k => k == .MODULE_FIELD_FUNC) = scopeOf .local x := tok_enclosing hx _
  cases hf : scopeOf .local x with
  | none =>
    have e : declarations .local x = [] := by simp only [declarations, hf, Option.elim]
    refine ⟨[], completion_one hs ht hctx ?_, ?_, ?_⟩
    · rw [ctxItems, henc, hf]
    · rw [e]
      unfold choices numbered
      split <;> rfl
    · rw [e]
      rfl
  | some f =>
    have hfm := List.mem_of_find?_eq_some hf
    have hfk : f.kind = .MODULE_FIELD_FUNC := by simpa [scopeKind] using List.find?_some hf
    obtain ⟨items, h1, h2, h3⟩ := localItems hs (parse_valOk h) (parse_identOk h) (parse_root_green h) (hxt.ancestor hfm) hfk (henc.trans hf)
    refine ⟨items, completion_one hs ht hctx h1, ?_⟩
    rw [declarations_local hf]
    exact ⟨h2, h3⟩

/-- For labels completion offers the blocks around, innermost first; those are the labels in scope when the reference is in no
condition of an `if`.  Missing for the full claim: in a condition the label of the `if` is offered though it is not in scope
(`C39_condition`). -/
theorem C39_label_partial (dbg : Bool) (src : Text) (g : Green) (errs : List Err) (dropped : Text)
    (h : parse dbg src = .tree g errs dropped) (u v : Text) (hu : src = u ++ v) (t : Tok) (x : Red)
    (ht : BeingTyped (Red.root g) (bytes u) t) (hx : t.parent = some x) (hr : RefersTo x .label) :
    ∃ items, completion src (Red.root g) (posAfter u) = .done (some items) ∧
      items.map CmpItem.shows = choices (t.text.head? == some '$') (x.ancestors.filter fun a => isLabel a.kind) ∧
      ((∀ c ∈ x.ancestors, ∀ a, c.parent = some a → inCondition c a = false) →
        items.map CmpItem.shows = choices (t.text.head? == some '$') (declarations .label x)) := by
  subst hu
  have hs := parse_solid h
  obtain ⟨x', h1, hxt, _⟩ := tok_parent ht.mem
  rw [hx] at h1; cases h1
  have hctx : cmpCtx t = [.block] := by
    apply cmpCtx_expects hs hxt hx (.ref hr)
    intro p hp
    rcases refersTo_elim hr with ⟨p', n, hp', hk, _⟩ | ⟨p', _, _, _, hk⟩
    · rw [hp] at hp'; cases hp'; rw [hk]; decide
    · exact absurd (congrFun hk .MODULE) (by decide)
  obtain ⟨items, h1, h2⟩ := labelItems hs (parse_identOk h) (parse_root_green h) ht.mem hx
  refine ⟨items, completion_one hs ht hctx h1, h2, fun hc => ?_⟩
  have hl : isLabel x.kind = false := by rcases refersTo_kind hs hxt hr with e | e <;> rw [e] <;> rfl
  rw [show declarations .label x = labelsOf x.ancestors from rfl, labelsOf_ancestors hl hc]
  exact h2

/-- For functions, types, globals, memories and tables completion offers exactly the entities of the module around of that
kind, in index order, imports included; after a `$`, exactly the names of these, and otherwise also those without a name,
with their indices if counting the entities of all kinds gives these; globals with their declared types.  Missing for the full claim: the memory of a data segment
and the indices of element segments (`C39_silent`), and the numbers (`C39_false`). -/
theorem C39_partial (dbg : Bool) (src : Text) (g : Green) (errs : List Err) (dropped : Text)
    (h : parse dbg src = .tree g errs dropped) (u v : Text) (hu : src = u ++ v) (t : Tok) (x : Red) (sp : Space)
    (ht : BeingTyped (Red.root g) (bytes u) t) (hx : t.parent = some x) (hr : Expects x sp) (hm : isModuleSpace sp = true)
    (hn : ∀ p, x.parent = some p → p.kind ≠ .MEM_USE ∧ p.kind ≠ .TABLE_USE ∧ p.kind ≠ .ELEM_LIST ∧ p.kind ≠ .ELEM) :
    ∃ m items, scopeOf sp x = some m ∧ completion src (Red.root g) (posAfter u) = .done (some items) ∧
      items.map CmpItem.shows = numbered (t.text.head? == some '$') (fieldsOf sp m) ∧
      (sp = .global → items.map CmpItem.detail =
        (offered (t.text.head? == some '$') (declarations sp x)).map fun d => (globalTypeOf d).bind typeName) ∧
      (t.text.head? = some '$' ∨ (∀ (d : Red) (k : Nat), (indexSpace sp m)[k]? = some d → nameOf d = none → (fields m)[k]? = some d) →
        items.map CmpItem.shows = choices (t.text.head? == some '$') (declarations sp x)) := by
  subst hu
  have hs := parse_solid h
  obtain ⟨x', h1, hxt, _⟩ := tok_parent ht.mem
  rw [hx] at h1; cases h1
  have hsk : scopeKind sp = isModule := by cases sp <;> first | rfl | cases hm
  have hpar : ∃ p, x.parent = some p := by
    cases hr with
    | ref hr => rcases refersTo_elim hr with ⟨p, _, hp, _⟩ | ⟨p, hp, _⟩ <;> exact ⟨p, hp⟩
    | global hp => exact ⟨_, hp⟩
    | table hp => exact ⟨_, hp⟩
    | elem hp => exact ⟨_, hp⟩
  obtain ⟨m, hmc, hmx⟩ : ∃ m ∈ (Red.root g).children, x.enclosing isModule = some m := by
    rcases InTree.module_of hs x hxt with e | ⟨m, h1, h2, _⟩
    · obtain ⟨p, hp⟩ := hpar
      rw [e] at hp
      cases hp
    · exact ⟨m, h1, h2⟩
  have hsc : scopeOf sp x = some m := by
    unfold scopeOf
    rw [hsk]
    exact hmx
  obtain ⟨items, h1, h2, h3⟩ := moduleItems hs (parse_valOk h) (parse_identOk h) (parse_root_green h) (t := t) hmc
    ((tok_enclosing hx _).trans hmx) hm
  refine ⟨m, items, hsc, completion_one hs ht (cmpCtx_expects hs hxt hx hr hn) h1, h2, by rw [declarations_module hm hsc]; exact h3, fun hc => ?_⟩
  rw [h2, declarations_module hm hsc]
  exact numbered_fields hs ((InTree.root g).child hmc) (by
    rcases hc with hc | hc
    · exact .inl (by unfold hasDollar; rw [hc]; rfl)
    · exact .inr hc)

/-- The kind of item that stands for a declaration. -/
def shownKind : Space → CmpKind
  | .func => .function
  | .type => .interface
  | _ => .variable

/-- What is offered at an index is marked as what it is: functions as functions, types as interfaces and all else as variables. -/
theorem C39_kind (dbg : Bool) (src : Text) (g : Green) (errs : List Err) (dropped : Text)
    (h : parse dbg src = .tree g errs dropped) (u v : Text) (hu : src = u ++ v) (t : Tok) (x : Red) (sp : Space)
    (ht : BeingTyped (Red.root g) (bytes u) t) (hx : t.parent = some x) (hr : Expects x sp)
    (hn : ∀ p, x.parent = some p → p.kind ≠ .MEM_USE ∧ p.kind ≠ .TABLE_USE ∧ p.kind ≠ .ELEM_LIST ∧ p.kind ≠ .ELEM) :
    ∃ items, completion src (Red.root g) (posAfter u) = .done (some items) ∧ ∀ i ∈ items, i.kind = shownKind sp := by
  subst hu
  have hs := parse_solid h
  obtain ⟨x', h1, hxt, _⟩ := tok_parent ht.mem
  rw [hx] at h1; cases h1
  obtain ⟨items, hok⟩ := ctxItems_ok hs (parse_valOk h) (parse_root_green h) t (ctxOf sp)
  refine ⟨items, completion_one hs ht (cmpCtx_expects hs hxt hx hr hn) hok, fun i hi => ?_⟩
  have hidx : ∀ {d : Bool} {k : CmpKind} {a b : Option Text} {j : Idx}, idxItem d k a b j = some i → i.kind = k := by
    intro d k a b j e
    unfold idxItem at e
    obtain ⟨_, _, rfl⟩ := Option.map_eq_some_iff.mp e
    rfl
  cases sp with
  | func =>
    rw [ctxOf, ctxItems] at hok
    split at hok
    · cases hok; cases hi
    · obtain ⟨s, _, e⟩ := (filterMapL_mem hok i).mp hi
      unfold funcItem at e
      split at e
      · cases e
      · obtain ⟨_, _, e⟩ := bind_done e
        cases e; rfl
  | label =>
    rw [ctxOf, ctxItems] at hok
    cases hok
    obtain ⟨_, _, e⟩ := List.mem_filterMap.mp hi
    exact hidx e
  | _ =>
    rw [ctxOf, ctxItems] at hok
    split at hok
    · cases hok; cases hi
    · cases hok
      obtain ⟨_, _, e⟩ := List.mem_filterMap.mp hi
      exact hidx e

/-- There is no completion in the memory of a data segment and the table and the functions of an element segment. -/
theorem C39_silent (dbg : Bool) (src : Text) (g : Green) (errs : List Err) (dropped : Text)
    (h : parse dbg src = .tree g errs dropped) (u v : Text) (hu : src = u ++ v) (t : Tok) (x p : Red)
    (ht : BeingTyped (Red.root g) (bytes u) t) (hx : t.parent = some x) (hk : x.kind = .INDEX) (hp : x.parent = some p)
    (hn : p.kind = .MEM_USE ∨ p.kind = .TABLE_USE ∨ p.kind = .ELEM_LIST ∨ p.kind = .ELEM) :
    completion src (Red.root g) (posAfter u) = .done none := by
  subst hu
  exact completion_silent (parse_solid h) ht (cmpCtx_silent hx hk hp hn)

/-- The labels and inserted texts completion answers with. -/
def answerShows : Ans (Option (List CmpItem)) → Option (List (Text × Text))
  | .done (some items) => some (items.map CmpItem.shows)
  | _ => none

/-- The claim of C39 about one position. -/
theorem C39_refuted {src u v : Text} {g : Green} {errs : List Err} {dropped : Text} (h : parse false src = .tree g errs dropped)
    (hu : src = u ++ v) {t : Tok} {x : Red} {sp : Space} (ht : BeingTyped (Red.root g) (bytes u) t) (hx : t.parent = some x)
    (he : Expects x sp) (hne : answerShows (completion src (Red.root g) (posAfter u)) ≠
      some (choices (t.text.head? == some '$') (declarations sp x))) : ¬ C39_statement := by
  intro hst
  obtain ⟨items, h1, h2⟩ := hst false src g errs dropped h u v hu t x sp ht hx he
  rw [h1, ← h2] at hne
  exact hne rfl

/-- The claim is false of the code: in `(module (type (func)) (func (call 0)))` the only function is offered as `1`, the index of
no function; its index is 0. -/
theorem C39_false : ¬ C39_statement := by
  have : (parse false t!"(module (type (func)) (func (call 0)))").test (fun g _ _ =>
      typedTest (Red.root g) (bytes t!"(module (type (func)) (func (call 0") fun t x p => operandOf .func p &&
        (answerShows (completion t!"(module (type (func)) (func (call 0)))" (Red.root g) (posAfter t!"(module (type (func)) (func (call 0")) ==
          some [(t!"1", t!"1")]) && choices (t.text.head? == some '$') (declarations .func x) == [(t!"0", t!"0")]) = true := by
    decide +kernel
  obtain ⟨g, errs, dropped, h, hq⟩ := ParseOut.of_test this
  obtain ⟨t, x, p, ht, hx, hp, hc⟩ := typedTest_spec hq
  simp only [Bool.and_eq_true, beq_iff_eq] at hc
  refine C39_refuted h (v := t!")))") rfl ht hx (.ref (operandOf_spec hp hc.1.1)) ?_
  rw [hc.1.2, hc.2]
  decide

/-- In `(module (func (if $l (br $l) (then))))` the label `$l` is offered in the condition, where it is not in scope. -/
theorem C39_condition : ¬ C39_statement := by
  have : (parse false t!"(module (func (if $l (br $l) (then))))").test (fun g _ _ =>
      typedTest (Red.root g) (bytes t!"(module (func (if $l (br $l") fun t x p => operandOf .label p &&
        (answerShows (completion t!"(module (func (if $l (br $l) (then))))" (Red.root g) (posAfter t!"(module (func (if $l (br $l")) ==
          some [(t!"$l", t!"l")]) && choices (t.text.head? == some '$') (declarations .label x) == []) = true := by
    decide +kernel
  obtain ⟨g, errs, dropped, h, hq⟩ := ParseOut.of_test this
  obtain ⟨t, x, p, ht, hx, hp, hc⟩ := typedTest_spec hq
  simp only [Bool.and_eq_true, beq_iff_eq] at hc
  refine C39_refuted h (v := t!") (then))))") rfl ht hx (.ref (operandOf_spec hp hc.1.1)) ?_
  rw [hc.1.2, hc.2]
  decide

/-- In `(module (table $t 1 funcref) (func $f) (elem (i32.const 0) func $f))` nothing is offered for `$f`, though `$f` is a function in scope. -/
theorem C39_elem : ¬ C39_statement := by
  have : (parse false t!"(module (table $t 1 funcref) (func $f) (elem (i32.const 0) func $f))").test (fun g _ _ =>
      typedTest (Red.root g) (bytes t!"(module (table $t 1 funcref) (func $f) (elem (i32.const 0) func $f") fun t x p =>
        p.kind == .ELEM_LIST && x.kind == .INDEX &&
        choices (t.text.head? == some '$') (declarations .func x) == [(t!"$f", t!"f")]) = true := by
    decide +kernel
  obtain ⟨g, errs, dropped, h, hq⟩ := ParseOut.of_test this
  obtain ⟨t, x, p, ht, hx, hp, hc⟩ := typedTest_spec hq
  simp only [Bool.and_eq_true, beq_iff_eq] at hc
  refine C39_refuted h (v := t!"))") rfl ht hx (.elem hp (.inl hc.1.1) hc.1.2) ?_
  rw [C39_silent false _ g errs dropped h _ t!"))" rfl t x p ht hx hc.1.2 hp (.inr (.inr (.inl hc.1.1)))]
  exact fun e => nomatch e

/-- Example for `C39_local`: two names are offered after `$`, with their types. -/
example : ∃ g errs dropped t x items, parse false t!"(module (func (param $a i32) (param f64) (local $b i64) (local.get $a)))" = .tree g errs dropped ∧
    BeingTyped (Red.root g) (bytes t!"(module (func (param $a i32) (param f64) (local $b i64) (local.get $") t ∧ t.parent = some x ∧
    RefersTo x .local ∧ completion t!"(module (func (param $a i32) (param f64) (local $b i64) (local.get $a)))" (Red.root g)
      (posAfter t!"(module (func (param $a i32) (param f64) (local $b i64) (local.get $") = .done (some items) ∧
    items.map CmpItem.shows = [(t!"$a", t!"a"), (t!"$b", t!"b")] ∧ items.map CmpItem.detail = [some t!"i32", some t!"i64"] := by
  have : (parse false t!"(module (func (param $a i32) (param f64) (local $b i64) (local.get $a)))").test (fun g _ _ =>
      typedTest (Red.root g) (bytes t!"(module (func (param $a i32) (param f64) (local $b i64) (local.get $") fun t x p => operandOf .local p &&
        choices (t.text.head? == some '$') (declarations .local x) == [(t!"$a", t!"a"), (t!"$b", t!"b")] &&
        ((offered (t.text.head? == some '$') (declarations .local x)).map fun d => (declaredType d).bind typeName) ==
          [some t!"i32", some t!"i64"]) = true := by
    decide +kernel
  obtain ⟨g, errs, dropped, h, hq⟩ := ParseOut.of_test this
  obtain ⟨t, x, p, ht, hx, hp, hc⟩ := typedTest_spec hq
  simp only [Bool.and_eq_true, beq_iff_eq] at hc
  obtain ⟨items, h1, h2, h3⟩ := C39_local false _ g errs dropped h _ t!"a)))" rfl t x ht hx (operandOf_spec hp hc.1.1)
  exact ⟨g, errs, dropped, t, x, items, h, ht, hx, operandOf_spec hp hc.1.1, h1, h2.trans hc.1.2, h3.trans hc.2⟩

/-- Example for `C39_label_partial`: an unnamed loop in a named block. -/
example : ∃ g errs dropped t x items, parse false t!"(module (func (block $b (loop (br 0)))))" = .tree g errs dropped ∧
    BeingTyped (Red.root g) (bytes t!"(module (func (block $b (loop (br 0") t ∧ t.parent = some x ∧ RefersTo x .label ∧
    completion t!"(module (func (block $b (loop (br 0)))))" (Red.root g) (posAfter t!"(module (func (block $b (loop (br 0") = .done (some items) ∧
    items.map CmpItem.shows = [(t!"0", t!"0"), (t!"$b", t!"$b")] := by
  have : (parse false t!"(module (func (block $b (loop (br 0)))))").test (fun g _ _ =>
      typedTest (Red.root g) (bytes t!"(module (func (block $b (loop (br 0") fun t x p => operandOf .label p &&
        choices (t.text.head? == some '$') (x.ancestors.filter fun a => isLabel a.kind) == [(t!"0", t!"0"), (t!"$b", t!"$b")]) = true := by
    decide +kernel
  obtain ⟨g, errs, dropped, h, hq⟩ := ParseOut.of_test this
  obtain ⟨t, x, p, ht, hx, hp, hc⟩ := typedTest_spec hq
  simp only [Bool.and_eq_true, beq_iff_eq] at hc
  obtain ⟨items, h1, h2, _⟩ := C39_label_partial false _ g errs dropped h _ t!")))))" rfl t x ht hx (operandOf_spec hp hc.1)
  exact ⟨g, errs, dropped, t, x, items, h, ht, hx, operandOf_spec hp hc.1, h1, h2.trans hc.2⟩

/-- Example for `C39_partial`: the functions of a module with an import and a global, where the numbers differ but are not shown. -/
example : ∃ g errs dropped t x items,
    parse false t!"(module (global $g i32) (import \"a\" \"b\" (func $i)) (func $f (call $f)))" = .tree g errs dropped ∧
    BeingTyped (Red.root g) (bytes t!"(module (global $g i32) (import \"a\" \"b\" (func $i)) (func $f (call $f") t ∧ t.parent = some x ∧
    completion t!"(module (global $g i32) (import \"a\" \"b\" (func $i)) (func $f (call $f)))" (Red.root g)
      (posAfter t!"(module (global $g i32) (import \"a\" \"b\" (func $i)) (func $f (call $f") = .done (some items) ∧
    items.map CmpItem.shows = [(t!"$i", t!"i"), (t!"$f", t!"f")] := by
  have : (parse false t!"(module (global $g i32) (import \"a\" \"b\" (func $i)) (func $f (call $f)))").test (fun g _ _ =>
      typedTest (Red.root g) (bytes t!"(module (global $g i32) (import \"a\" \"b\" (func $i)) (func $f (call $f") fun t x p => operandOf .func p &&
        choices (t.text.head? == some '$') (declarations .func x) == [(t!"$i", t!"i"), (t!"$f", t!"f")] &&
        t.text.head? == some '$') = true := by
    decide +kernel
  obtain ⟨g, errs, dropped, h, hq⟩ := ParseOut.of_test this
  obtain ⟨t, x, p, ht, hx, hp, hc⟩ := typedTest_spec hq
  simp only [Bool.and_eq_true, beq_iff_eq] at hc
  have hk : p.kind = .PLAIN_INSTR := by
    have := hc.1.1
    unfold operandOf at this
    simp only [Bool.and_eq_true, beq_iff_eq] at this
    exact this.1
  obtain ⟨m, items, _, h1, _, _, h2⟩ := C39_partial false _ g errs dropped h _ t!")))" rfl t x .func ht hx
    (.ref (operandOf_spec hp hc.1.1)) rfl (fun q hq => by rw [hp] at hq; cases hq; rw [hk]; decide)
  exact ⟨g, errs, dropped, t, x, items, h, ht, hx, h1, (h2 (.inl hc.2)).trans hc.1.2⟩

end Verif
