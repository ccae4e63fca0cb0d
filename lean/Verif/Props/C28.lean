import Verif.Lemmas.Rewrite
import Verif.Lemmas.ProgramCheck
/-!
C28: splitting and joining declarations preserves the signature.
-/
namespace Verif
open Spec

/-- C28 in full: when a rewrite is applied and the file is read again, the signatures of all functions, types and blocks
are what they were, and there are no more syntax errors than before. -/
def C28_statement : Prop :=
  ∀ (dbg : Bool) (src : Text) (g : Green) (errs : List Err) (dropped : Text), parse dbg src = .tree g errs dropped →
    ∀ (only : Option (List Text)) (r : Range) (as : List Action), codeActions src (Red.root g) only r = .done (some as) →
    ∀ a ∈ as, a.kind = t!"refactor.rewrite" → ∃ g' errs' dropped',
      parse dbg (applyEdits (a.edits.map asEdit) src) = .tree g' errs' dropped' ∧ errs'.length ≤ errs.length ∧
        signatures g' = signatures g

/-- A block with two results. -/
def C28_src : Text := t!"(module (func block (result i32 f64) end))"

/-- C28 fails: `(result i32 f64)` of a block is split into `(result i32) (result f64)`, but the grammar of the code reads
only one group of results there, so that the second one is a syntax error and the block has lost a result. -/
theorem C28_false : ¬ C28_statement := by
  intro h
  have : (parse false C28_src).test (fun g e _ =>
      match codeActions C28_src (Red.root g) none ⟨⟨0, 22⟩, ⟨0, 22⟩⟩ with
      | .done (some [a]) => a.kind == t!"refactor.rewrite" && e.isEmpty &&
          (parse false (applyEdits (a.edits.map asEdit) C28_src)).test fun _ e _ => !e.isEmpty
      | _ => false) = true := by decide +kernel
  obtain ⟨g, e, d, h1, h2⟩ := ParseOut.of_test this
  split at h2
  · rename_i a ha
    simp only [Bool.and_eq_true] at h2
    obtain ⟨g', e', d', h3, h4, _⟩ := h _ _ g e d h1 _ _ _ ha a (by simp) (by simpa using h2.1.1)
    obtain ⟨g2, e2, d2, h5, h6⟩ := ParseOut.of_test h2.2
    rw [h3] at h5
    cases h5
    cases e with
    | nil => cases e' with
      | nil => cases h6
      | cons _ _ => simp at h4
    | cons _ _ => simp at h2
  · cases h2

/-- What is proved of C28: a rewrite replaces declarations of one kind that follow one another below one node, from the
first character of the first one to the last character of the last one, by declarations that declare the same, in the
same order; and each of the new declarations is read by the grammar as just that, without errors.  Missing is that the
grammar expects such declarations at that place and reads the rest of the file as before, which is not so in block
types. -/
theorem C28_partial (dbg : Bool) (src : Text) (g : Green) (errs : List Err) (dropped : Text) (hq : ¬ BadQuote src ∨ errs = [])
    (h : parse dbg src = .tree g errs dropped) (only : Option (List Text)) (r : Range) (as : List Action)
    (hr : codeActions src (Red.root g) only r = .done (some as)) (a : Action) (ha : a ∈ as) (hk : a.kind = t!"refactor.rewrite") :
    g.text ++ dropped = src ∧ ∃ (k : Kind) (parent first : Red) (others left right : List Red) (news : List Green) (pre mid post : Text),
      (k = .PARAM ∨ k = .RESULT ∨ k = .LOCAL) ∧
      parent ∈ (Red.root g).descendants ∧ parent.children = left ++ (first :: others) ++ right ∧
      (∀ n ∈ first :: others, n.kind = k) ∧
      src = pre ++ mid ++ post ∧ bytes pre = first.start ∧ bytes (pre ++ mid) = ((first :: others).getLastD first).stop ∧
      applyEdits (a.edits.map asEdit) src = pre ++ unwords (news.map Green.text) ++ post ∧
      (∀ m ∈ news, m.kind = k ∧ ReadBack dbg m) ∧
      news.flatMap entries = (first :: others).flatMap fun n => entries n.green := by
  have hs := parse_solid h
  have h0 := parse_valOk h
  have hg := parse_root_green h
  refine ⟨C01_kept_partial dbg src g errs dropped hq h, ?_⟩
  obtain ⟨ab, n, _, hn, h1⟩ := codeActions_mem hr ha
  have hR : Rewrites dbg g src a := by
    rcases actionAt_rewrite h1 hk with ⟨hkind, h2⟩ | ⟨hkind, h2⟩
    · exact split_ok hs h0 hg (root_kind hs) hn hkind h2
    · exact join_ok hs h0 hg hn h2
  obtain ⟨k, p, f, o, l, r, n, x, y, z, p1, p2, p3, p4, p5, p6, p7, p8, p9, p10, _⟩ := hR
  exact ⟨k, p, f, o, l, r, n, x, y, z, p1, p2, p3, p4, p5, p6, p7, p8, p9, p10⟩

/-- Non-trivial case: two groups of parameters, the second one with two types; at the cursor it is split, and with both
groups selected they are joined. -/
def C28_ok : Text := t!"(module (func (param i64) (param i32 f64) (result i32)))"

example : ¬ BadQuote C28_ok ∧ ∃ g e d a b, parse true C28_ok = .tree g e d ∧
    codeActions C28_ok (Red.root g) none ⟨⟨0, 30⟩, ⟨0, 30⟩⟩ = .done (some [a]) ∧ a.kind = t!"refactor.rewrite" ∧
    applyEdits (a.edits.map asEdit) C28_ok = t!"(module (func (param i64) (param i32) (param f64) (result i32)))" ∧
    codeActions C28_ok (Red.root g) none ⟨⟨0, 14⟩, ⟨0, 41⟩⟩ = .done (some [b]) ∧ b.kind = t!"refactor.rewrite" ∧
    applyEdits (b.edits.map asEdit) C28_ok = t!"(module (func (param i64 i32 f64) (result i32)))" := by
  refine ⟨?_, ?_⟩
  · rintro ⟨a, b, h, _⟩
    have : '"' ∈ C28_ok := by rw [h]; simp
    revert this; decide
  · have : (parse true C28_ok).test (fun g _ _ =>
        match codeActions C28_ok (Red.root g) none ⟨⟨0, 30⟩, ⟨0, 30⟩⟩, codeActions C28_ok (Red.root g) none ⟨⟨0, 14⟩, ⟨0, 41⟩⟩ with
        | .done (some [a]), .done (some [b]) => a.kind == t!"refactor.rewrite" && b.kind == t!"refactor.rewrite" &&
            applyEdits (a.edits.map asEdit) C28_ok == t!"(module (func (param i64) (param i32) (param f64) (result i32)))" &&
            applyEdits (b.edits.map asEdit) C28_ok == t!"(module (func (param i64 i32 f64) (result i32)))"
        | _, _ => false) = true := by decide +kernel
    obtain ⟨g, e, d, h1, h2⟩ := ParseOut.of_test this
    split at h2
    · rename_i a b ha hb
      simp only [Bool.and_eq_true, beq_iff_eq] at h2
      exact ⟨g, e, d, a, b, h1, ha, h2.1.1.1, h2.1.2, hb, h2.1.1.2, h2.2⟩
    · cases h2

/-- What is proved of C28 for whole documents: a document that the grammar of C57 describes and that is read without
errors is again read without errors after the rewrite, with the same signatures, unless it is the result of a block type
that is split (which is where C28 fails).  Missing are documents outside that grammar, in particular those with syntax
errors, and those where a word directly follows another one. -/
theorem C28_program_partial (dbg : Bool) (src : Text) (g : Green) (dropped : Text) (h : parse dbg src = .tree g [] dropped)
    (hp : Program (strip g)) (ht : TokensApart g) (only : Option (List Text)) (r : Range) (as : List Action)
    (hr : codeActions src (Red.root g) only r = .done (some as)) (a : Action) (ha : a ∈ as) (hk : a.kind = t!"refactor.rewrite")
    (hb : ∀ p ∈ (Red.root g).descendants, p.kind = .BLOCK_TYPE → ∀ c ∈ p.children, c.kind = .RESULT →
      ∀ e ∈ a.edits, ¬ IsRange src (c.start, c.stop) e.range) :
    ∃ g', parse dbg (applyEdits (a.edits.map asEdit) src) = .tree g' [] [] ∧ signatures g' = signatures g := by
  have hs := parse_solid h
  have h0 := parse_valOk h
  have hg := parse_root_green h
  obtain ⟨ab, n, _, hn, h1⟩ := codeActions_mem hr ha
  refine rewrite_reparse h hp ht ?_ hb
  rcases actionAt_rewrite h1 hk with ⟨hkind, h2⟩ | ⟨hkind, h2⟩
  · exact split_ok hs h0 hg (root_kind hs) hn hkind h2
  · exact join_ok hs h0 hg hn h2

/-- The example: a source up to the declarations, these, and the rest. -/
def C28_pre : Text := t!"(module ;; c\n (type $t (func)) (func $f "
def C28_mid : Text := t!"(param i64) (param i32 f64)"
def C28_post : Text := t!" (result i32)\n (block (result i32 i64) call $f)))"

/-- Non-trivial case: a document with comments, and with a block with two results, where two groups of parameters are
joined. -/
example : ∃ g a, parse true (C28_pre ++ C28_mid ++ C28_post) = .tree g [] [] ∧ Program (strip g) ∧ TokensApart g ∧
    codeActions (C28_pre ++ C28_mid ++ C28_post) (Red.root g) none ⟨posAfter C28_pre, posAfter (C28_pre ++ C28_mid)⟩ = .done (some [a]) ∧
    applyEdits (a.edits.map asEdit) (C28_pre ++ C28_mid ++ C28_post) = C28_pre ++ t!"(param i64 i32 f64)" ++ C28_post ∧
    (∃ p ∈ (Red.root g).descendants, p.kind = .BLOCK_TYPE ∧ ∃ c ∈ p.children, c.kind = .RESULT) ∧
    ∃ g', parse true (C28_pre ++ t!"(param i64 i32 f64)" ++ C28_post) = .tree g' [] [] ∧ signatures g' = signatures g := by
  have : (parse true (C28_pre ++ C28_mid ++ C28_post)).test (fun g e d => e.isEmpty && d.isEmpty && (strip g).kind == .ROOT &&
      wfB (strip g) && tokApartB g.toks &&
      ((Red.root g).descendants.any fun p => p.kind == .BLOCK_TYPE && p.children.any fun c => c.kind == .RESULT) &&
      ((Red.root g).descendants.all fun p => p.kind != .BLOCK_TYPE || p.children.all fun c => c.start != bytes C28_pre) &&
      match codeActions (C28_pre ++ C28_mid ++ C28_post) (Red.root g) none ⟨posAfter C28_pre, posAfter (C28_pre ++ C28_mid)⟩ with
      | .done (some [a]) => a.kind == t!"refactor.rewrite" && (a.edits.all fun e => e.range.start == posAfter C28_pre) &&
          applyEdits (a.edits.map asEdit) (C28_pre ++ C28_mid ++ C28_post) == C28_pre ++ t!"(param i64 i32 f64)" ++ C28_post
      | _ => false) = true := by decide +kernel
  obtain ⟨g, e, d, h1, h2⟩ := ParseOut.of_test this
  simp only [Bool.and_eq_true, List.isEmpty_iff, beq_iff_eq] at h2
  obtain ⟨⟨⟨⟨⟨⟨⟨rfl, rfl⟩, h3⟩, h4⟩, h5⟩, h6⟩, h7⟩, h8⟩ := h2
  split at h8
  · rename_i a hes
    simp only [Bool.and_eq_true, List.all_eq_true, beq_iff_eq] at h8
    have hp : Program (strip g) := ⟨h3, wfB_sound _ h4⟩
    have ht : TokensApart g := tokApartB_sound h5
    obtain ⟨p, hp1, hp2⟩ := List.any_eq_true.mp h6
    simp only [Bool.and_eq_true, beq_iff_eq, List.any_eq_true] at hp2
    obtain ⟨g', h9, h10⟩ := C28_program_partial true _ g _ h1 hp ht _ _ _ hes a (.head _) h8.1.1 (by
      intro p hp hk c hc _ e he hr
      have h7 := List.all_eq_true.mp h7 p hp
      rw [hk] at h7
      simp only [bne_self_eq_false, Bool.false_or, List.all_eq_true, bne_iff_ne] at h7
      obtain ⟨⟨u, v, e1, e2, e3⟩, _⟩ := hr
      rw [h8.1.2 e he] at e3
      have := posAfter_inj (List.append_assoc ..) e1 e3
      exact h7 c hc (by rw [this, e2]))
    rw [h8.2] at h9
    exact ⟨g, a, h1, hp, ht, hes, h8.2, ⟨p, hp1, hp2.1, hp2.2⟩, g', h9, h10⟩
  · cases h8

end Verif
