import Verif.Lemmas.Denote
/-!
Helper lemmas: concrete cursors, for examples and counterexamples.
-/
set_option linter.unusedSimpArgs false
namespace Verif
open Spec

variable {g : Green}

/-- Evaluates a condition on the significant token at an offset. -/
def cursorTest (root : Red) (off : Nat) (f : Tok → Bool) : Bool :=
  match root.tokens.filter fun t => decide (t.off ≤ off) && decide (off ≤ t.off + bytes t.text) && !insignificant t.kind with
  | [t] => f t
  | _ => false

theorem cursorTest_spec {root : Red} {off : Nat} {f : Tok → Bool} (h : cursorTest root off f = true) :
    ∃ t, CursorOn root off t ∧ f t = true := by
  unfold cursorTest at h
  cases hl : root.tokens.filter fun t => decide (t.off ≤ off) && decide (off ≤ t.off + bytes t.text) && !insignificant t.kind with
  | nil => rw [hl] at h; cases h
  | cons t l =>
    cases l with
    | cons _ _ => rw [hl] at h; cases h
    | nil =>
      rw [hl] at h
      have hm : t ∈ root.tokens.filter fun t => decide (t.off ≤ off) && decide (off ≤ t.off + bytes t.text) && !insignificant t.kind := by
        rw [hl]; simp
      have hm2 := List.mem_filter.mp hm
      simp only [Bool.and_eq_true, decide_eq_true_eq, Bool.not_eq_true'] at hm2
      refine ⟨t, ⟨hm2.1, hm2.2.1, hm2.2.2, ?_⟩, h⟩
      intro u hu htouch
      cases hi : insignificant u.kind with
      | true => exact .inr rfl
      | false =>
        have : u ∈ root.tokens.filter fun t => decide (t.off ≤ off) && decide (off ≤ t.off + bytes t.text) && !insignificant t.kind := by
          rw [List.mem_filter]
          refine ⟨hu, ?_⟩
          simp only [Bool.and_eq_true, decide_eq_true_eq, Bool.not_eq_true']
          exact ⟨htouch, hi⟩
        rw [hl, List.mem_singleton] at this
        exact .inl this

/-- Evaluates a condition on the operand at an offset and its instruction. -/
def operandTest (root : Red) (off : Nat) (sp : Space) (f : Red → Bool) : Bool :=
  cursorTest root off fun t =>
    match t.parent with
    | none => false
    | some x =>
      match x.parent with
      | none => false
      | some p =>
        p.kind == .PLAIN_INSTR && f x &&
          match p.token .INSTR_NAME with
          | none => false
          | some n => decide ((n.text, sp) ∈ instrSpace) && n.text != t!"table.init"

theorem operandTest_spec {root : Red} {off : Nat} {sp : Space} {f : Red → Bool} (h : operandTest root off sp f = true) :
    ∃ t x, CursorOn root off t ∧ t.parent = some x ∧ RefersTo x sp ∧ f x = true := by
  obtain ⟨t, h1, h2⟩ := cursorTest_spec h
  cases hx : t.parent with
  | none => rw [hx] at h2; cases h2
  | some x =>
    rw [hx] at h2
    simp only at h2
    cases hp : x.parent with
    | none => rw [hp] at h2; cases h2
    | some p =>
      rw [hp] at h2
      simp only [Bool.and_eq_true, beq_iff_eq] at h2
      cases hn : p.token .INSTR_NAME with
      | none => rw [hn] at h2; exact absurd h2.2 (by simp)
      | some n =>
        rw [hn] at h2
        simp only [Bool.and_eq_true, decide_eq_true_eq, bne_iff_ne, ne_eq] at h2
        exact ⟨t, x, h1, hx, .operand hp h2.1.1 hn h2.2.1 (fun h => absurd h h2.2.2), h2.1.2⟩

/-- A reference that touches the cursor is the one the cursor is on. -/
theorem touch_unique (hs : Solid g) {off : Nat} {t t' : Tok} (hc : CursorOn (Red.root g) off t) (hm : t' ∈ (Red.root g).tokens)
    (ht : t'.off ≤ off ∧ off ≤ t'.off + bytes t'.text) {x : Red} (hx : t'.parent = some x) {sp : Space} (hr : RefersTo x sp) :
    t' = t := by
  rcases hc.only t' hm ht with h | h
  · exact h
  · exfalso
    obtain ⟨p', hp', hpt', hpc⟩ := tok_parent hm
    rw [hx] at hp'; cases hp'
    have h9 := hpt'.tok_kind hs hpc
    have h10 := refersTo_kind hs hpt' hr
    revert h9 h
    rcases h10 with h10 | h10 <;> rw [h10] <;> cases t'.kind <;> simp [allowed, insignificant, instrKinds]

/-- Ranges are determined by their ends. -/
theorem isRange_eq {src : Text} {ab : Nat × Nat} {r : Range} (h : IsRange src ab r) : rowanRangeToLsp src ab.1 ab.2 = some r :=
  rowanRangeToLsp_iff.mpr h

theorem option_key_inj (hs : Solid g) {a b : Option Red} (ha : ∀ x, a = some x → InTree g x)
    (hb : ∀ x, b = some x → InTree g x ∧ mayBeEmpty x.kind = false) (h : a.map Red.key = b.map Red.key) : a = b := by
  cases a with
  | none => cases b with
    | none => rfl
    | some b => cases h
  | some a => cases b with
    | none => cases h
    | some b =>
      rw [InTree.key_inj hs (ha a rfl) (hb b rfl).1 (Option.some.inj h) (hb b rfl).2]

/-- Evaluates a condition on the node of the significant token at an offset. -/
def parentTest (root : Red) (off : Nat) (f : Tok → Red → Bool) : Bool :=
  cursorTest root off fun t => match t.parent with
    | none => false
    | some d => f t d

theorem parentTest_spec {root : Red} {off : Nat} {f : Tok → Red → Bool} (h : parentTest root off f = true) :
    ∃ t d, CursorOn root off t ∧ t.parent = some d ∧ f t d = true := by
  obtain ⟨t, h1, h2⟩ := cursorTest_spec h
  cases hd : t.parent with
  | none => rw [hd] at h2; cases h2
  | some d => rw [hd] at h2; exact ⟨t, d, h1, hd, h2⟩

end Verif
