import Verif.Lemmas.Offer
import Verif.Props.C01
import Verif.Spec.Keywords
/-!
C63: code actions are offered where they apply, and only there.
-/
namespace Verif
open Spec

/-! ### Splitting and joining declarations -/

/-- C63 in full for rewrites: the rewrites that are offered are, when the request asks for rewrites, exactly the splitting
of a group around the selection and the joining of selected groups. -/
def C63_rewrite_statement : Prop :=
  ∀ (dbg : Bool) (src : Text) (g : Green) (errs : List Err) (dropped : Text), parse dbg src = .tree g errs dropped →
    ∀ (pre sel post : Text), src = pre ++ sel ++ post → ∀ only : Option (List Text), ∃ res,
      codeActions src (Red.root g) only ⟨posAfter pre, posAfter (pre ++ sel)⟩ = .done res ∧ res ≠ some [] ∧
      ∀ act : Action, act.kind = rewriting → (act ∈ res.getD [] ↔ AsksFor only rewriting ∧ ∃ n ∈ (Red.root g).descendants,
        Encloses n (bytes pre) (bytes (pre ++ sel)) ∧
        (SplitsGroup src n act ∨ JoinsGroups src (bytes pre) (bytes (pre ++ sel)) n act))

/-- Two types in one group. -/
def C63_src : Text := t!"(module (func (param i32 i64)))"

/-- The rewrite of the group of `C63_src`. -/
def C63_split : Action :=
  ⟨t!"Split parameters", t!"refactor.rewrite", [⟨⟨⟨0, 14⟩, ⟨0, 29⟩⟩, t!"(param i32) (param i64)"⟩]⟩

/-- C63 fails: a request for the kind `refactor`, of which `refactor.rewrite` is a part, gets no answer. -/
theorem C63_rewrite_false : ¬ C63_rewrite_statement := by
  intro h
  have : (parse false C63_src).test (fun g _ _ =>
      decide (codeActions C63_src (Red.root g) (some [t!"refactor"]) ⟨⟨0, 22⟩, ⟨0, 22⟩⟩ = .done none) &&
      decide (codeActions C63_src (Red.root g) none ⟨⟨0, 22⟩, ⟨0, 22⟩⟩ = .done (some [C63_split]))) = true := by decide +kernel
  obtain ⟨g, e, d, h1, h2⟩ := ParseOut.of_test this
  rw [Bool.and_eq_true, decide_eq_true_eq, decide_eq_true_eq] at h2
  have hsrc : C63_src = t!"(module (func (param i" ++ [] ++ t!"32 i64)))" := by decide
  have hp : (⟨posAfter t!"(module (func (param i", posAfter (t!"(module (func (param i" ++ [])⟩ : Range) = ⟨⟨0, 22⟩, ⟨0, 22⟩⟩ := by decide
  obtain ⟨res, k1, _, k3⟩ := h false C63_src g e d h1 _ _ _ hsrc (some [t!"refactor"])
  obtain ⟨res', k1', _, k3'⟩ := h false C63_src g e d h1 _ _ _ hsrc none
  rw [hp] at k1 k1'
  rw [h2.1] at k1
  rw [h2.2] at k1'
  cases k1
  cases k1'
  have h3 := ((k3' C63_split rfl).mp (by simp)).2
  have h4 := (k3 C63_split rfl).mpr ⟨?_, h3⟩
  · simp at h4
  · rintro ks hks
    cases hks
    exact ⟨_, .head _, .inr (by decide)⟩

/-- What is proved of C63 for rewrites, in documents without broken strings: the rewrites offered are exactly those that
apply, when the request asks for rewrites by their exact kind or for everything; except for a cursor at which a node
without text is, as at the end of the results of an `if` that goes on without instructions. -/
theorem C63_rewrite_partial (dbg : Bool) (src : Text) (g : Green) (errs : List Err) (dropped : Text)
    (hq : ¬ BadQuote src ∨ errs = []) (h : parse dbg src = .tree g errs dropped) (pre sel post : Text)
    (hsrc : src = pre ++ sel ++ post) (hb : sel ≠ [] ∨ ¬ BareNodeAt g (bytes pre)) (only : Option (List Text)) : ∃ res,
    codeActions src (Red.root g) only ⟨posAfter pre, posAfter (pre ++ sel)⟩ = .done res ∧ res ≠ some [] ∧
    ∀ act : Action, act.kind = rewriting → (act ∈ res.getD [] ↔ AsksExactly only rewriting ∧ ∃ n ∈ (Red.root g).descendants,
      Encloses n (bytes pre) (bytes (pre ++ sel)) ∧
      (SplitsGroup src n act ∨ JoinsGroups src (bytes pre) (bytes (pre ++ sel)) n act)) := by
  have hs := parse_solid h
  have ht := C01_kept_partial dbg src g errs dropped hq h
  have hr := lspRange_ok pre sel post
  rw [← hsrc] at hr
  have hab : bytes pre ≤ bytes (pre ++ sel) := by rw [bytes_append]; omega
  obtain ⟨res, h1, h2, h3⟩ := rewrite_mem hs ht (only := only) hr hab (hb.imp_left fun hne => by
    have := bytes_pos hne
    rw [bytes_append]; omega)
  refine ⟨res, h1, h2, fun act hk => ?_⟩
  rw [h3]
  constructor
  · rintro ⟨n, hn, hE, _, ha⟩
    have := (actionAt_rewriting hk).mp ha
    exact ⟨this.1, n, hn, hE, this.2⟩
  · rintro ⟨ho, n, hn, hE, ha⟩
    refine ⟨n, hn, hE, ?_, (actionAt_rewriting hk).mpr ⟨ho, ha⟩⟩
    intro hk
    rcases ha with ⟨_, _, _, _, h4, _⟩ | ⟨h4, _⟩
    · rw [hk] at h4; revert h4; simp [splittable]
    · rw [hk] at h4; simp at h4

/-- Non-trivial case: with two groups selected, the first of them with two types, they are joined; with all of the first
selected it is split, and may be joined with itself. -/
example : ∃ g e d, parse false t!"(module (func (param i32 i64) (param f32)))" = .tree g e d ∧
    ¬ BadQuote t!"(module (func (param i32 i64) (param f32)))" ∧
    codeActions t!"(module (func (param i32 i64) (param f32)))" (Red.root g) (some [rewriting])
      ⟨posAfter t!"(module (func ", posAfter t!"(module (func (param i32 i64) (param f32)"⟩ =
      .done (some [⟨t!"Join parameters", rewriting, [⟨⟨⟨0, 14⟩, ⟨0, 41⟩⟩, t!"(param i32 i64 f32)"⟩]⟩]) := by
  have : (parse false t!"(module (func (param i32 i64) (param f32)))").test (fun g _ _ =>
      decide (codeActions t!"(module (func (param i32 i64) (param f32)))" (Red.root g) (some [rewriting])
        ⟨posAfter t!"(module (func ", posAfter t!"(module (func (param i32 i64) (param f32)"⟩ =
        .done (some [⟨t!"Join parameters", rewriting, [⟨⟨⟨0, 14⟩, ⟨0, 41⟩⟩, t!"(param i32 i64 f32)"⟩]⟩]))) = true := by decide +kernel
  obtain ⟨g, e, d, h1, h2⟩ := ParseOut.of_test this
  refine ⟨g, e, d, h1, ?_, of_decide_eq_true h2⟩
  rintro ⟨a, b, h, _⟩
  have : '"' ∈ t!"(module (func (param i32 i64) (param f32)))" := by rw [h]; simp
  revert this; decide

/-- The exception of `C63_rewrite_partial`: at the end of the two results of an `if`, nothing is offered, since the
instructions of the `if`, none at all, are the node in front of the cursor. -/
theorem C63_rewrite_missed : ∃ g e d n, parse false t!"(module (func if (result i32 i64) end))" = .tree g e d ∧
    codeActions t!"(module (func if (result i32 i64) end))" (Red.root g) none ⟨⟨0, 33⟩, ⟨0, 33⟩⟩ = .done none ∧
    n ∈ (Red.root g).descendants ∧ n.kind = .RESULT ∧ Encloses n 33 33 ∧ 2 ≤ (groupTypes n).length ∧ BareNodeAt g 33 := by
  have : (parse false t!"(module (func if (result i32 i64) end))").test (fun g _ _ =>
      decide (codeActions t!"(module (func if (result i32 i64) end))" (Red.root g) none ⟨⟨0, 33⟩, ⟨0, 33⟩⟩ = .done none) &&
      (Red.root g).descendants.any (fun n => n.kind == .RESULT && n.start == 17 && n.stop == 33 && decide (2 ≤ (groupTypes n).length)) &&
      (Red.root g).descendants.any fun n => n.start == 33 && n.stop == 33) = true := by decide +kernel
  obtain ⟨g, e, d, h1, h2⟩ := ParseOut.of_test this
  rw [Bool.and_eq_true, Bool.and_eq_true, decide_eq_true_eq, List.any_eq_true, List.any_eq_true] at h2
  obtain ⟨⟨h3, n, hn, h4⟩, m, hm, h5⟩ := h2
  simp only [Bool.and_eq_true, beq_iff_eq, decide_eq_true_eq] at h4 h5
  exact ⟨g, e, d, n, h1, h3, hn, h4.1.1.1, ⟨by omega, by omega, .inr (.inl (by omega))⟩, h4.2, m, hm, h5⟩

/-! ### Joining -/

/-- C63 in full for joining: joining is offered for two groups or more, so that it changes the document. -/
def C63_join_statement : Prop :=
  ∀ (dbg : Bool) (src : Text) (g : Green) (dropped : Text), parse dbg src = .tree g [] dropped →
    ∀ (only : Option (List Text)) (r : Range) (as : List Action), codeActions src (Red.root g) only r = .done (some as) →
    ∀ act ∈ as, act.title = t!"Join parameters" → applyEdits (act.edits.map asEdit) src ≠ src

/-- C63 fails for joining: with one group selected, joining is offered, and does nothing. -/
theorem C63_join_false : ¬ C63_join_statement := by
  intro h
  have : (parse false C63_src).test (fun g e _ => e.isEmpty &&
      match codeActions C63_src (Red.root g) none ⟨⟨0, 14⟩, ⟨0, 29⟩⟩ with
      | .done (some [a, b]) => a.title == t!"Join parameters" && applyEdits (a.edits.map asEdit) C63_src == C63_src &&
          decide (b = C63_split)
      | _ => false) = true := by decide +kernel
  obtain ⟨g, e, d, h1, h2⟩ := ParseOut.of_test this
  rw [Bool.and_eq_true] at h2
  cases e with
  | cons _ _ => cases h2.1
  | nil =>
    replace h2 := h2.2
    split at h2
    · rename_i a b ha
      simp only [Bool.and_eq_true, beq_iff_eq] at h2
      exact h _ _ g d h1 _ _ _ ha a (by simp) h2.1.1 h2.1.2
    · cases h2

/-! ### The memory-argument fix -/

/-- C63 in full for the fix: when blanks stand inside the first memory argument of a load or store, the fix is offered at
a cursor in the argument, and deletes the blank. -/
def C63_fix_statement : Prop :=
  ∀ (dbg : Bool) (src : Text) (g : Green) (errs : List Err) (dropped : Text), parse dbg src = .tree g errs dropped →
    ∀ (l r : List Tok) (i w hd b q : Tok) (instr : Instr), (Red.root g).tokens = l ++ [i, w, hd, b, q] ++ r →
    i.kind = .INSTR_NAME → instr ∈ instrTable → instr.name = i.text → TakesMemArg instr → w.kind = .WHITESPACE → b.kind = .WHITESPACE →
    (hd.text ∈ argNames ∧ EqDigits q.text ∨ (∃ name ∈ argNames, hd.text = name ++ ['=']) ∧ q.kind = .INT) →
    ∀ pre post : Text, src = pre ++ post → hd.off < bytes pre → bytes pre < q.stop →
    ∃ as, codeActions src (Red.root g) none ⟨posAfter pre, posAfter pre⟩ = .done (some as) ∧ FixDeletes src as b

/-- A load that is not in parentheses. -/
def C63_flat : Text := t!"(module (func i32.load offset =1))"

/-- C63 fails for the fix: `offset` after a load that is not in parentheses is read as an instruction of its own, and
nothing is offered. -/
theorem C63_fix_false : ¬ C63_fix_statement := by
  intro h
  have : (parse false C63_flat).test (fun g _ _ =>
      decide (codeActions C63_flat (Red.root g) none ⟨⟨0, 28⟩, ⟨0, 28⟩⟩ = .done none) &&
      match (Red.root g).tokens.drop 6 with
      | i :: w :: hd :: b :: q :: _ => i.kind == .INSTR_NAME && i.text == t!"i32.load" && w.kind == .WHITESPACE &&
          hd.text == t!"offset" && b.kind == .WHITESPACE && q.text == t!"=1" && hd.off == 23 && q.off == 30
      | _ => false) = true := by decide +kernel
  obtain ⟨g, e, d, h1, h2⟩ := ParseOut.of_test this
  rw [Bool.and_eq_true, decide_eq_true_eq] at h2
  obtain ⟨h3, h2⟩ := h2
  split at h2
  · rename_i i w hd b q r hr
    simp only [Bool.and_eq_true, beq_iff_eq] at h2
    obtain ⟨⟨⟨⟨⟨⟨⟨k1, k2⟩, k3⟩, k4⟩, k5⟩, k6⟩, k7⟩, k8⟩ := h2
    have hm : ⟨t!"i32.load", [0x28], [ty .i32], [ty .i32]⟩ ∈ instrTable := by decide +kernel
    have ht : (Red.root g).tokens = (Red.root g).tokens.take 6 ++ [i, w, hd, b, q] ++ r := by
      rw [List.append_assoc]
      exact (List.take_append_drop 6 _).symm.trans (by rw [hr]; rfl)
    obtain ⟨as, k9, _⟩ := h false C63_flat g e d h1 _ _ _ _ _ _ _ _ ht k1 hm k2.symm (.inl ⟨_, rfl, by decide⟩) k3 k5
      (.inl ⟨by rw [k4]; decide, [_], k6, by decide⟩) t!"(module (func i32.load offse" t!"t =1))" (by decide)
      (by rw [k7]; decide) (by simp only [Tok.stop, k6, k8]; decide)
    have hp : (⟨posAfter t!"(module (func i32.load offse", posAfter t!"(module (func i32.load offse"⟩ : Range) = ⟨⟨0, 28⟩, ⟨0, 28⟩⟩ := by decide
    rw [hp, h3] at k9
    cases k9
  · cases h2

/-- What is proved of C63 for the fix, in documents without broken strings: when the pieces of a memory argument are in one
instruction, with nothing before them in the instruction that looks like an argument, the fix is offered wherever a
selection is in the instruction, and it deletes exactly the blank between the pieces, and where `=` and its digits were apart from
the name and a number follows, the blank before that number. -/
theorem C63_fix_partial (dbg : Bool) (src : Text) (g : Green) (errs : List Err) (dropped : Text)
    (hq : ¬ BadQuote src ∨ errs = []) (h : parse dbg src = .tree g errs dropped) (pre sel post : Text)
    (hsrc : src = pre ++ sel ++ post) (hb : sel ≠ [] ∨ ¬ BareNodeAt g (bytes pre)) (only : Option (List Text))
    (ho : AsksExactly only fixing) (n : Red) (hn : n ∈ (Red.root g).descendants) (hk : n.kind = .PLAIN_INSTR)
    (hE : Encloses n (bytes pre) (bytes (pre ++ sel))) (l r : List El) (hd b : Tok) (e : El)
    (hels : n.els = l ++ .tok hd :: .tok b :: e :: r) (hl : ∀ t, El.tok t ∈ l → t.kind = .ERROR → ¬ BeginsArg t.text)
    (hhd : hd.kind = .ERROR) (hw : b.kind = .WHITESPACE) (hp : SetApart hd.text e) :
    ∃ as act, codeActions src (Red.root g) only ⟨posAfter pre, posAfter (pre ++ sel)⟩ = .done (some as) ∧ act ∈ as ∧ act.kind = fixing ∧
      (∀ w, hd.text ∈ argNames → NumberFollows r w → Deletes src [b, w] act.edits) ∧
      ((hd.text ∉ argNames ∨ ∀ w, ¬ NumberFollows r w) → Deletes src [b] act.edits) := by
  have hs := parse_solid h
  have ht := C01_kept_partial dbg src g errs dropped hq h
  have hr := lspRange_ok pre sel post
  rw [← hsrc] at hr
  have hab : bytes pre ≤ bytes (pre ++ sel) := by rw [bytes_append]; omega
  obtain ⟨res, h1, h2, h3⟩ := rewrite_mem hs ht (only := only) hr hab (hb.imp_left fun hne => by
    have := bytes_pos hne
    rw [bytes_append]; omega)
  have hx := fixRanges_apart (r := r) hl hhd hw hp
  rw [← hels] at hx
  have key : ∀ bs : List Tok, bs ≠ [] → fixRanges 0 n.els = bs.map (fun b => (b.off, b.stop)) →
      ∃ as act, codeActions src (Red.root g) only ⟨posAfter pre, posAfter (pre ++ sel)⟩ = .done (some as) ∧ act ∈ as ∧
        act.kind = fixing ∧ fixMemArg src n = .done (some act) ∧ Deletes src bs act.edits := by
    intro bs hne hfx
    obtain ⟨act, h4, h5, h6⟩ := fix_deletes hs ht hn hne hfx
    have hm := (h3 act).mpr ⟨n, hn, hE, by rw [hk]; decide, by
      have : wants only quickfixKind = true := wants_iff.mpr ho
      simp only [actionAt, hk, this, if_true]
      exact h4⟩
    cases res with
    | none => cases hm
    | some as => exact ⟨as, act, h1, hm, h5, h4, h6⟩
  by_cases hc : hd.text ∈ argNames ∧ ∃ w, NumberFollows r w
  · obtain ⟨hc, w, hf⟩ := hc
    rw [if_pos hc, checkAfterEq_follows hf] at hx
    obtain ⟨as, act, k1, k2, k3, k4, k5⟩ := key [b, w] (by simp) hx
    refine ⟨as, act, k1, k2, k3, fun w' _ hf' => ?_, fun h => ?_⟩
    · have : w' = w := by
        obtain ⟨_, _, _, e1, _⟩ := hf
        obtain ⟨_, _, _, e2, _⟩ := hf'
        rw [e1] at e2
        simp only [List.cons.injEq, El.tok.injEq] at e2
        exact e2.1.symm
      rw [this]; exact k5
    · rcases h with h | h
      · exact absurd hc h
      · exact absurd hf (h w)
  · have hnil : (if hd.text ∈ argNames then (checkAfterEq r).toList else []) = [] := by
      split
      · rename_i h
        rw [checkAfterEq_none fun w hf => hc ⟨h, w, hf⟩]
        rfl
      · rfl
    rw [hnil] at hx
    obtain ⟨as, act, k1, k2, k3, k4, k5⟩ := key [b] (by simp) hx
    exact ⟨as, act, k1, k2, k3, fun w h1 h2 => absurd ⟨h1, w, h2⟩ hc, fun _ => k5⟩

/-- What one would expect of the fix: it joins the parts of a memory argument, and nothing else; what is deleted is not between two
numbers. -/
def C63_inside_statement : Prop :=
  ∀ (dbg : Bool) (src : Text) (g : Green) (errs : List Err) (dropped : Text), parse dbg src = .tree g errs dropped →
    ∀ (only : Option (List Text)) (r : Range) (as : List Action), codeActions src (Red.root g) only r = .done (some as) →
    ∀ act ∈ as, act.kind = fixing → ∀ e ∈ act.edits, ∀ (pre post : Text) (a c : Char),
      src = pre ++ a :: ' ' :: c :: post → e.range = ⟨posAfter (pre ++ [a]), posAfter (pre ++ [a, ' '])⟩ →
      ¬ (a.isDigit = true ∧ c.isDigit = true)

/-- The fix joins numbers: `offset =1 2` becomes `offset=12`, since the blank behind `=` and its digits is deleted as well. -/
theorem C63_inside_false : ¬ C63_inside_statement := by
  intro h
  have : (parse false t!"(module (func (i32.load offset =1 2)))").test (fun g _ _ =>
      decide (codeActions t!"(module (func (i32.load offset =1 2)))" (Red.root g) none ⟨⟨0, 28⟩, ⟨0, 28⟩⟩ =
        .done (some [⟨t!"Fix invalid memory argument", t!"quickfix", [⟨⟨⟨0, 30⟩, ⟨0, 31⟩⟩, []⟩, ⟨⟨⟨0, 33⟩, ⟨0, 34⟩⟩, []⟩]⟩]))) = true := by
    decide +kernel
  obtain ⟨g, e, d, h1, h2⟩ := ParseOut.of_test this
  exact h _ _ _ _ _ h1 none ⟨⟨0, 28⟩, ⟨0, 28⟩⟩ _ (of_decide_eq_true h2) _ (.head _) rfl ⟨⟨⟨0, 33⟩, ⟨0, 34⟩⟩, []⟩ (.tail _ (.head _))
    t!"(module (func (i32.load offset =" t!")))" '1' '2' (by decide) (by decide) (by decide)

/-- The converse, in documents without broken strings: every action offered is a rewrite or a fix; and a fix is offered only
when it is asked for, for an instruction around the selection, and deletes blanks of that instruction. -/
theorem C63_fix_only_partial (dbg : Bool) (src : Text) (g : Green) (errs : List Err) (dropped : Text)
    (hq : ¬ BadQuote src ∨ errs = []) (h : parse dbg src = .tree g errs dropped) (pre sel post : Text)
    (hsrc : src = pre ++ sel ++ post) (hb : sel ≠ [] ∨ ¬ BareNodeAt g (bytes pre)) (only : Option (List Text)) (as : List Action)
    (has : codeActions src (Red.root g) only ⟨posAfter pre, posAfter (pre ++ sel)⟩ = .done (some as)) (act : Action) (ha : act ∈ as) :
    act.kind = rewriting ∨ act.kind = fixing ∧ AsksExactly only fixing ∧ ∃ n ∈ (Red.root g).descendants, n.kind = .PLAIN_INSTR ∧
      Encloses n (bytes pre) (bytes (pre ++ sel)) ∧ act.edits ≠ [] ∧
      ∀ e ∈ act.edits, e.newText = [] ∧ ∃ b ∈ n.childToks, b.kind = .WHITESPACE ∧ IsRange src (b.off, b.stop) e.range := by
  have hs := parse_solid h
  have ht := C01_kept_partial dbg src g errs dropped hq h
  have hr := lspRange_ok pre sel post
  rw [← hsrc] at hr
  have hab : bytes pre ≤ bytes (pre ++ sel) := by rw [bytes_append]; omega
  obtain ⟨res, h1, h2, h3⟩ := rewrite_mem hs ht (only := only) hr hab (hb.imp_left fun hne => by
    have := bytes_pos hne
    rw [bytes_append]; omega)
  rw [has] at h1
  cases h1
  obtain ⟨n, hn, hE, _, h4⟩ := (h3 act).mp ha
  by_cases hk : act.kind = quickfixKind
  · right
    obtain ⟨h5, h6⟩ := actionAt_quick h4 hk
    obtain ⟨ts, _, h8, h9, _⟩ := fix_text hs ht hn h6
    refine ⟨hk, ?_, n, hn, h5, hE, (fixMemArg_kind h6).2.1, fun e he => ⟨(h9 e he).1, ?_⟩⟩
    · refine wants_iff.mp ?_
      simp only [actionAt, h5] at h4
      split at h4
      · assumption
      · cases h4
    · obtain ⟨t, ht, hr⟩ := (h9 e he).2
      obtain ⟨_, h10, x, y, l, r, h11, _⟩ := h8 t ht
      exact ⟨t, els_tok (by rw [h11]; simp), h10, hr⟩
  · left
    unfold actionAt at h4
    split at h4
    · split at h4
      · exact absurd (fixMemArg_kind h4).1 hk
      · cases h4
    all_goals first
      | (split at h4
         · first
           | (obtain ⟨_, _, _, _, _, _, _, _, _, rfl⟩ := splitDecl_elim h4; rfl)
           | (obtain ⟨_, _, _, _, _, _, _, _, _, _, rfl⟩ := joinParams_elim h4; rfl)
         · cases h4)
      | cases h4

/-- Non-trivial case: a load in parentheses, with the cursor on the argument. -/
example : ∃ g e d n l r hd b x, parse false t!"(module (func (i32.load offset =1)))" = .tree g e d ∧
    n ∈ (Red.root g).descendants ∧ n.kind = .PLAIN_INSTR ∧ Encloses n 28 28 ∧ n.els = l ++ .tok hd :: .tok b :: x :: r ∧
    (∀ t, El.tok t ∈ l → t.kind = .ERROR → ¬ BeginsArg t.text) ∧ hd.kind = .ERROR ∧ b.kind = .WHITESPACE ∧ SetApart hd.text x ∧
    codeActions t!"(module (func (i32.load offset =1)))" (Red.root g) none ⟨⟨0, 28⟩, ⟨0, 28⟩⟩ =
      .done (some [⟨t!"Fix invalid memory argument", t!"quickfix", [⟨⟨⟨0, 30⟩, ⟨0, 31⟩⟩, []⟩]⟩]) := by
  have : (parse false t!"(module (func (i32.load offset =1)))").test (fun g _ _ =>
      decide (codeActions t!"(module (func (i32.load offset =1)))" (Red.root g) none ⟨⟨0, 28⟩, ⟨0, 28⟩⟩ =
        .done (some [⟨t!"Fix invalid memory argument", t!"quickfix", [⟨⟨⟨0, 30⟩, ⟨0, 31⟩⟩, []⟩]⟩])) &&
      (Red.root g).descendants.any fun n => n.kind == .PLAIN_INSTR && n.start == 14 && n.stop == 34 &&
        (n.els.take 3).all (fun e => e.kind != .ERROR) &&
        match n.els.drop 3 with
        | .tok hd :: .tok b :: .tok q :: _ => hd.kind == .ERROR && hd.text == t!"offset" && b.kind == .WHITESPACE &&
            q.kind == .ERROR && q.text == t!"=1"
        | _ => false) = true := by decide +kernel
  obtain ⟨g, e, d, h1, h2⟩ := ParseOut.of_test this
  rw [Bool.and_eq_true, decide_eq_true_eq, List.any_eq_true] at h2
  obtain ⟨h3, n, hn, h2⟩ := h2
  rw [Bool.and_eq_true] at h2
  obtain ⟨h4, h2⟩ := h2
  simp only [Bool.and_eq_true, beq_iff_eq, List.all_eq_true, bne_iff_ne] at h4
  split at h2
  · rename_i hd b q r hr
    simp only [Bool.and_eq_true, beq_iff_eq] at h2
    refine ⟨g, e, d, n, n.els.take 3, r, hd, b, .tok q, h1, hn, h4.1.1.1, ⟨by omega, by omega, .inr (.inl (by omega))⟩, ?_,
      fun t ht hk => absurd hk (h4.2 _ ht), h2.1.1.1.1, h2.1.1.2, .inl ⟨by rw [h2.1.1.1.2]; decide, q, rfl, h2.1.2, [_], h2.2, by decide⟩, h3⟩
    exact (List.take_append_drop 3 _).symm.trans (by rw [hr])
  · cases h2

end Verif
