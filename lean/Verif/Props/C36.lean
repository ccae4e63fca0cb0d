import Verif.Lemmas.Query
import Verif.Lemmas.DupOrder
/-!
C36: answers depend only on the latest texts.

Full statement: after any history of commits and requests, every request is answered as by a fresh service that was only given
the latest text of each document.

This is false of the code for the order of the diagnostics for duplicated names: `dup_names.rs:38` groups the names in a hash
map whose keys hold the numbers that names were interned with, and these depend on the history; the diagnostics come in the
order of that map.  The model of the queries compares names as texts and gives these diagnostics in the order of the document;
the order of the maps is that of `Model/DupOrder.lean`.
-/
namespace Verif
open Spec

/-- C36 for all handlers: a handler is any program that reads texts and queries (signatures and headers of function symbols
only, as all handlers of the service do).  Whatever happened before, it answers what it answers when each query is computed
anew from the latest texts; so two histories that leave the same texts, one of which may be the bare commits, cannot be told
apart.  Missing for the full claim: the order of diagnostics for duplicated names, where it is false (`C36_order_false`). -/
theorem C36_partial {R : Type} (dbg : Bool) (h h' : List (Event R)) (p : QProg R) (ha : AsksAll dbg [] h) (ha' : AsksAll dbg [] h')
    (hl : latest h = latest h') (hp : Asks dbg (latest h) p) :
    ∃ s s', Service.after dbg Db.init h = some s ∧ Service.after dbg Db.init h' = some s' ∧
      (∃ t t', Service.handle dbg s p = some (t, handled dbg (latest h) p) ∧ Service.handle dbg s' p = some (t', handled dbg (latest h) p)) := by
  obtain ⟨s, H, h1, h2, h3⟩ := after_ok h [] Db.init _ init_ok (fun _ => rfl) ha
  obtain ⟨s', H', h1', h2', h3'⟩ := after_ok h' [] Db.init _ init_ok (fun _ => rfl) ha'
  have e : H s.now = latest h := funext h3
  have e' : H' s'.now = latest h := by rw [hl]; exact funext h3'
  obtain ⟨t, g1, _⟩ := handle_ok h2 p (by rw [e]; exact hp)
  obtain ⟨t', g1', _⟩ := handle_ok h2' p (by rw [e']; exact hp)
  rw [e] at g1
  rw [e'] at g1'
  exact ⟨s, s', h1, h1', t, t', g1, g1'⟩

/-- Each query by itself: after any history it has the value for the latest texts. -/
theorem C36_queries (dbg : Bool) (h : List (Event QVal)) (q : Query) (ha : AsksAll dbg [] h) (hq : Proper q) :
    ∃ s t, Service.after dbg Db.init h = some s ∧ Service.handle dbg s (.read q .done) = some (t, answer dbg (latest h) q) := by
  obtain ⟨s, _, h1, _, ⟨t, _, h2, _⟩⟩ := C36_partial dbg h h (.read q .done) ha ha rfl ⟨hq, trivial⟩
  exact ⟨s, t, h1, h2⟩

/-- A handler that asks for the header of the first function of a document. -/
def firstHeader (uri : Text) : QProg QVal :=
  .read (.symbolTable uri) fun
    | .table t =>
      match t.symbols.find? fun s => s.kind == .func with
      | some s => .read (.renderFuncHeader uri s) .done
      | none => .done .panicked
    | _ => .done .panicked

/-- It is a handler as the theorem has them, on any texts. -/
theorem firstHeader_asks (dbg : Bool) (σ : Text → Option Text) (uri : Text) : Asks dbg σ (firstHeader uri) := by
  unfold firstHeader
  refine ⟨trivial, ?_⟩
  simp only [answer]
  cases h : treeOf dbg σ uri with
  | none => exact trivial
  | some g =>
    simp only
    cases hf : (symbolTable (Red.root g)).symbols.find? fun s => s.kind == .func with
    | none => exact trivial
    | some s =>
      simp only
      refine ⟨⟨?_, ?_⟩, trivial⟩
      · have := List.find?_some hf
        simpa using this
      · unfold treeOf at h
        split at h
        · cases h
        · next src _ =>
          unfold parsedOf at h
          cases hp : parse dbg src with
          | tree g' errs dropped =>
            rw [hp] at h
            simp only at h
            cases hd : syntaxDiags src errs with
            | done ds =>
              rw [hd] at h
              simp only [Option.some.injEq] at h
              subst h
              exact ⟨dbg, src, g', errs, dropped, hp, List.mem_of_find?_eq_some hf⟩
            | panic => rw [hd] at h; simp at h
          | panic => rw [hp] at h; simp at h
          | oof => rw [hp] at h; simp at h

/-- Not vacuous, and a case where the cache is deceived: the type is changed in place, so that both symbol tables are equal
by key and kind, and the second one counts as unchanged; the header is that of the second text all the same. -/
example : ((Service.after false Db.init
      [.commit t!"a" t!"(module (type (func (param i32))) (func $f (type 0)))", .handle (firstHeader t!"a"),
       .commit t!"a" t!"(module (type (func (param i64))) (func $f (type 0)))"]).bind fun s =>
    (Service.handle false s (firstHeader t!"a")).map fun o =>
      (match o.2 with | .header t => t | _ => [], (o.1.memos.filterMap fun e => match e.1 with | .symbolTable _ => some e.2.changedAt | _ => none), o.1.now)) =
    some (t!"(func $f (param i64))", [2], 3) := by decide +kernel

/-! ### The order of diagnostics -/

/-- The text of a document after commits, the last one first. -/
def latestText (commits : List (Text × Text)) (uri : Text) : Option Text := (commits.find? fun c => c.1 == uri).map (·.2)

/-- The full statement of C36 for diagnostics: what is published depends on the latest texts only. -/
def C36_order_statement (ord : MapOrder) : Prop :=
  ∀ (dbg : Bool) (cs cs' : List (Text × Text)), (∀ uri, latestText cs uri = latestText cs' uri) →
    ∀ uri, publishedAfter dbg ord cs uri = publishedAfter dbg ord cs' uri

theorem publishedAfter_eq {dbg : Bool} {ord : MapOrder} {cs : List (Text × Text)} {uri src : Text} {g : Green} {errs : List Err} {d : Text}
    (hl : latestText cs uri = some src) (hp : parse dbg src = .tree g errs d) :
    publishedAfter dbg ord cs uri = some (diagnosticsWith ord (cs.foldr (fun c ns => ns.commit dbg c.2) []) src (Red.root g) errs) ∧
    Interned (cs.foldr (fun c ns => ns.commit dbg c.2) []) (symbolTable (Red.root g)) := by
  unfold latestText at hl
  cases hf : cs.find? fun c => c.1 == uri with
  | none => rw [hf] at hl; cases hl
  | some c =>
    rw [hf] at hl
    simp only [Option.map_some, Option.some.injEq] at hl
    subst hl
    refine ⟨?_, interned_commits (uri := c.1) hp (List.mem_of_find?_eq_some hf)⟩
    unfold publishedAfter
    rw [hf]
    simp only [Option.bind_some, hp]

/-- C36 for published diagnostics, whatever the iteration orders of the maps are: after any commits they are, up to their order
(and that of related places), those the other theorems are about, so that any two histories with the same latest text publish
the same diagnostics but for the order. -/
theorem C36_order_partial (dbg : Bool) (ord : MapOrder) (h1 : ∀ l, (ord.scopes l).Perm l) (h2 : ∀ l, (ord.labels l).Perm l)
    (cs : List (Text × Text)) (uri src : Text) (g : Green) (errs : List Err) (d : Text)
    (hl : latestText cs uri = some src) (hp : parse dbg src = .tree g errs d) :
    (diagnostics src (Red.root g) errs = .panic ∧ publishedAfter dbg ord cs uri = some .panic) ∨
    ∃ ds ds', diagnostics src (Red.root g) errs = .done ds ∧ publishedAfter dbg ord cs uri = some (.done ds') ∧ SameDiags ds ds' := by
  obtain ⟨e, hi⟩ := publishedAfter_eq (ord := ord) hl hp
  rcases diagnosticsWith_same h1 h2 hp hi with ⟨e1, e2⟩ | ⟨ds, ds', e1, e2, e3⟩
  · exact .inl ⟨e1, by rw [e, e2]⟩
  · exact .inr ⟨ds, ds', e1, by rw [e, e2], e3⟩

theorem perm_pair {l : List α} {a b : α} (h : l.Perm [a, b]) : l = [a, b] ∨ l = [b, a] := by
  match l, h.length_eq with
  | [x, y], _ =>
    have hx := h.mem_iff.mp (.head _)
    simp only [List.mem_cons, List.not_mem_nil, or_false] at hx
    rcases hx with rfl | rfl
    · left; have := List.perm_singleton.mp (List.Perm.cons_inv h); simp_all
    · right
      have := List.perm_singleton.mp (List.Perm.cons_inv (h.trans (.swap _ _ _)))
      simp_all

/-- The document of the counterexample, and its module. -/
def C36_text : Text := t!"(module (func $a) (func $a) (func $b) (func $b))"
def C36_module : Key := ⟨.MODULE, 0, 48⟩

/-- Names, with `$a` and `$b` at given places. -/
def C36_names (i j : Nat) : List Text :=
  (List.range 4).map fun k => if k = i then t!"$a" else if k = j then t!"$b" else ['$', Char.ofNat (99 + k)]

/-- An earlier text of the document, in which functions have these names. -/
def C36_earlier (i j : Nat) : Text := t!"(module" ++ (C36_names i j).flatMap (fun n => t!"(func " ++ n ++ t!")") ++ t!")"

theorem diagnosticsWith_congr {ord ord' : MapOrder} {ns : Interner} {src : Text} {root : Red} {errs : List Err}
    (h1 : ord.scopes (keysOf (scopeKey ns) (symbolTable root).symbols) = ord'.scopes (keysOf (scopeKey ns) (symbolTable root).symbols))
    (h2 : ord.labels (keysOf (labelKey ns) (symbolTable root).symbols) = ord'.labels (keysOf (labelKey ns) (symbolTable root).symbols)) :
    diagnosticsWith ord ns src root errs = diagnosticsWith ord' ns src root errs := by
  unfold diagnosticsWith checkRawWith checkScopes checkLabels
  simp only [h1, h2]

/-- The messages of diagnostics. -/
def msgsOf : Ans (List Diag) → List DiagMsg
  | .done ds => ds.map (·.msg)
  | .panic => []

/-- The code violates C36 in the order of diagnostics, whatever the hash function, unless the map keeps the order of insertion
for all of the four numbers (two keys that are not filed in one place are found in an order that does not depend on which of
them was inserted first): after one text the names have their numbers the one way, after another one the other way, and the
diagnostics of one and the same text come in two orders. -/
theorem C36_order_false (ord : MapOrder) (h1 : ∀ l, (ord.scopes l).Perm l) (h2 : ∀ l, (ord.labels l).Perm l)
    (h3 : ∃ i j, i < 4 ∧ j < 4 ∧ i ≠ j ∧ ord.scopes [(i, C36_module), (j, C36_module)] = ord.scopes [(j, C36_module), (i, C36_module)]) :
    ¬ C36_order_statement ord := by
  intro h
  obtain ⟨i, j, hi, hj, hne, hord⟩ := h3
  have b1 : (parse false C36_text).test (fun g e _ => (List.range 4).all fun i => (List.range 4).all fun j => decide (i = j) ||
      (keysOf (scopeKey (C36_names i j)) (symbolTable (Red.root g)).symbols == [(i, C36_module), (j, C36_module)] &&
       keysOf (labelKey (C36_names i j)) (symbolTable (Red.root g)).symbols == [] &&
       msgsOf (diagnosticsWith ⟨fun _ => [(i, C36_module), (j, C36_module)], fun _ => []⟩ (C36_names i j) C36_text (Red.root g) e) ==
         [.duplicated t!"$a", .duplicated t!"$a", .duplicated t!"$b", .duplicated t!"$b"] &&
       msgsOf (diagnosticsWith ⟨fun _ => [(j, C36_module), (i, C36_module)], fun _ => []⟩ (C36_names i j) C36_text (Red.root g) e) ==
         [.duplicated t!"$b", .duplicated t!"$b", .duplicated t!"$a", .duplicated t!"$a"])) = true := by
    decide +kernel
  have b2 : ((List.range 4).all fun i => (List.range 4).all fun j => decide (i = j) ||
      ([(t!"u", C36_text), (t!"u", C36_earlier i j)].foldr (fun c ns => Interner.commit false ns c.2) [] == C36_names i j)) = true := by
    decide +kernel
  obtain ⟨g, e, d, hp, b1⟩ := ParseOut.of_test b1
  have key : ∀ i j, i < 4 → j < 4 → i ≠ j → ∀ o, ord.scopes [(i, C36_module), (j, C36_module)] = o → ∃ a,
      publishedAfter false ord [(t!"u", C36_text), (t!"u", C36_earlier i j)] t!"u" = some a ∧
      (o = [(i, C36_module), (j, C36_module)] → msgsOf a = [.duplicated t!"$a", .duplicated t!"$a", .duplicated t!"$b", .duplicated t!"$b"]) ∧
      (o = [(j, C36_module), (i, C36_module)] → msgsOf a = [.duplicated t!"$b", .duplicated t!"$b", .duplicated t!"$a", .duplicated t!"$a"]) := by
    intro i j hi hj hne o ho
    have c1 := List.all_eq_true.mp (List.all_eq_true.mp b1 i (List.mem_range.mpr hi)) j (List.mem_range.mpr hj)
    have c2 := List.all_eq_true.mp (List.all_eq_true.mp b2 i (List.mem_range.mpr hi)) j (List.mem_range.mpr hj)
    simp only [hne, decide_false, Bool.false_or, Bool.and_eq_true, beq_iff_eq] at c1 c2
    obtain ⟨⟨⟨d1, d2⟩, d3⟩, d4⟩ := c1
    have hl : ord.labels [] = [] := List.Perm.eq_nil (h2 [])
    refine ⟨_, (publishedAfter_eq rfl hp).1, fun e => ?_, fun e => ?_⟩
    · rw [c2, ← d3]
      exact congrArg msgsOf (diagnosticsWith_congr (by rw [d1, ho, e]) (by rw [d2, hl]))
    · rw [c2, ← d4]
      exact congrArg msgsOf (diagnosticsWith_congr (by rw [d1, ho, e]) (by rw [d2, hl]))
  obtain ⟨a, p1, p2, p3⟩ := key i j hi hj hne _ rfl
  obtain ⟨b, q1, q2, q3⟩ := key j i hj hi (Ne.symm hne) _ hord.symm
  have := h false [(t!"u", C36_text), (t!"u", C36_earlier i j)] [(t!"u", C36_text), (t!"u", C36_earlier j i)] (fun uri => by
    unfold latestText
    simp only [List.find?_cons]
    split <;> simp_all) t!"u"
  rw [p1, q1] at this
  have hab : a = b := Option.some.inj this
  subst hab
  have hperm : ord.scopes [(i, C36_module), (j, C36_module)] = [(i, C36_module), (j, C36_module)] ∨
      ord.scopes [(i, C36_module), (j, C36_module)] = [(j, C36_module), (i, C36_module)] := by
    have := h1 [(i, C36_module), (j, C36_module)]
    exact perm_pair this
  rcases hperm with hq | hq
  · have r1 := p2 hq
    have r2 := q3 hq
    rw [r1] at r2
    revert r2; decide
  · have r1 := p3 hq
    have r2 := q2 hq
    rw [r1] at r2
    revert r2; decide

/-- Non-trivial case: a map that puts two keys in the order of their numbers. -/
def C36_order : MapOrder where
  scopes
    | [x, y] => if x.1 ≤ y.1 then [x, y] else [y, x]
    | l => l
  labels l := l

example : (∀ l, (C36_order.scopes l).Perm l) ∧ (∀ l, (C36_order.labels l).Perm l) ∧ ¬ C36_order_statement C36_order := by
  have h1 : ∀ l, (C36_order.scopes l).Perm l := by
    intro l
    unfold C36_order
    simp only
    split
    · split
      · exact .refl _
      · exact .swap _ _ _
    · exact .refl _
  have h2 : ∀ l, (C36_order.labels l).Perm l := fun l => .refl l
  exact ⟨h1, h2, C36_order_false _ h1 h2 ⟨0, 1, by decide, by decide, by decide, by decide⟩⟩

/-- Non-trivial case: the diagnostics of a document after another text. -/
example : ∃ ds, publishedAfter true C36_order [(t!"u", C36_text), (t!"u", C36_earlier 1 0)] t!"u" = some (.done ds) ∧
    ds.map (·.msg) = [.duplicated t!"$b", .duplicated t!"$b", .duplicated t!"$a", .duplicated t!"$a"] := by
  have : (match publishedAfter true C36_order [(t!"u", C36_text), (t!"u", C36_earlier 1 0)] t!"u" with
      | some (.done ds) => ds.map (·.msg) == [.duplicated t!"$b", .duplicated t!"$b", .duplicated t!"$a", .duplicated t!"$a"]
      | _ => false) = true := by decide +kernel
  split at this
  · rename_i ds h
    exact ⟨ds, h, beq_iff_eq.mp this⟩
  · cases this

end Verif
