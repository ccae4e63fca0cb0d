import Verif.Lemmas.Calm
/-!
Helper lemmas for C64: the document of a tree without comments and blank lines has no two line breaks without a text in between.
-/
namespace Verif.Calm
open Verif Spec

/-- The text is more than a blank. -/
def inked (t : Text) : Bool := !(t == [] || t == [' '])

/-- A line break after a text; the state says whether a line break came after the last text. -/
def brk : Option Bool → Option Bool
  | some false => some true
  | _ => none

mutual
/-- Reads a document: `none` when two line breaks come without a text in between. -/
def runD : Doc → Option Bool → Option Bool
  | .nil, x => x
  | .text t, x => if inked t then x.map fun _ => false else x
  | .hardLine, x => brk x
  | .softLine, x => brk x
  | .emptyLine, x => brk x
  | .nest _ d, x => runD d x
  | .list ds, x => runL ds x
  | .crash, _ => none
/-- Reads documents. -/
def runL : List Doc → Option Bool → Option Bool
  | [], x => x
  | d :: ds, x => runL ds (runD d x)
end

theorem runL_append : ∀ (a b : List Doc) (x : Option Bool), runL (a ++ b) x = runL b (runL a x)
  | [], _, _ => rfl
  | d :: a, b, x => by simp only [List.cons_append, runL]; exact runL_append a b _

theorem runL_one (d : Doc) (x : Option Bool) : runL [d] x = runD d x := rfl

/-- The first state is at least as good as the second. -/
def Le (y x : Option Bool) : Prop := x = none ∨ x = y ∨ x = some true ∧ y = some false

theorem brk_le {y x : Option Bool} (h : Le y x) : Le (brk y) (brk x) := by
  rcases h with rfl | rfl | ⟨rfl, rfl⟩
  · exact .inl rfl
  · exact .inr (.inl rfl)
  · exact .inl rfl

mutual
theorem runD_le : ∀ (d : Doc) {y x : Option Bool}, Le y x → Le (runD d y) (runD d x)
  | .nil, _, _, h => h
  | .text t, y, x, h => by
    simp only [runD]
    split
    · rcases h with rfl | rfl | ⟨rfl, rfl⟩
      · exact .inl rfl
      · exact .inr (.inl rfl)
      · exact .inr (.inl rfl)
    · exact h
  | .hardLine, _, _, h => brk_le h
  | .softLine, _, _, h => brk_le h
  | .emptyLine, _, _, h => brk_le h
  | .nest _ d, _, _, h => runD_le d h
  | .list ds, _, _, h => runL_le ds h
  | .crash, _, _, _ => .inl rfl
theorem runL_le : ∀ (ds : List Doc) {y x : Option Bool}, Le y x → Le (runL ds y) (runL ds x)
  | [], _, _, h => h
  | d :: ds, _, _, h => runL_le ds (runD_le d h)
end

theorem ok_le {y : Option Bool} (h : Le y (some false)) : y = some false := by
  rcases h with h | h | ⟨h, _⟩
  · cases h
  · exact h.symm
  · cases h

/-- The document begins and ends with a text. -/
def Firm (d : Doc) : Prop := runD d (some true) = some false
/-- The document ends with a text if anything, and may begin with a line break. -/
def Loose (d : Doc) : Prop := runD d (some false) = some false

theorem Firm.loose {d : Doc} (h : Firm d) : Loose d := by
  have := runD_le d (y := some false) (x := some true) (.inr (.inr ⟨rfl, rfl⟩))
  rw [show runD d (some true) = some false from h] at this
  exact ok_le this

theorem Firm.any {d : Doc} (h : Firm d) (b : Bool) : runD d (some b) = some false := by
  cases b
  · exact h.loose
  · exact h

theorem firm_text {t : Text} (h : inked t = true) : Firm (.text t) := by simp [Firm, runD, h]

variable {o : FmtOpts} {ss : List Spot} {p : Pr} {k : Kind} {w : Text} {sep : Doc} {seps : List Doc} {b : Bool}

/-- What has been printed ends with a text (it begins with one when `b` is `true`), and nothing is pending. -/
structure Good (b : Bool) (p : Pr) : Prop where
  triv : p.triv = []
  docs : runL p.docs (some b) = some false

theorem good_init : Good false Pr.init := ⟨rfl, rfl⟩

/-- Documents with at most one line break and no text. -/
def SepOk (m : List Doc) : Prop := ∃ c, runL m (some false) = some c

theorem sep_nil : SepOk [] := ⟨_, rfl⟩
theorem sep_space : SepOk [.space] := ⟨_, rfl⟩
theorem sep_hard : SepOk [.hardLine] := ⟨_, rfl⟩
theorem sep_soft : SepOk [.softLine] := ⟨_, rfl⟩
theorem sep_nest {n : Nat} : SepOk [.nest n .softLine] := ⟨_, rfl⟩
theorem sep_nestHard {n : Nat} : SepOk [.nest n .hardLine] := ⟨_, rfl⟩

theorem Good.join {m t : List Doc} {d : Doc} (h : Good b p) (hm : SepOk m) (hd : Firm d) (ht : t = []) :
    Good b ⟨p.docs ++ m ++ [d], t⟩ := by
  obtain ⟨c, hc⟩ := hm
  exact ⟨ht, by rw [runL_append, runL_append, h.docs, hc, runL_one, hd.any]⟩

theorem Good.near {t : List Doc} {d : Doc} (h : Good b p) (hd : Loose d) (ht : t = []) : Good b ⟨p.docs ++ [d], t⟩ :=
  ⟨ht, by rw [runL_append, h.docs, runL_one, hd]⟩

/-- What is printed where the separator goes: nothing is pending. -/
theorem Good.sepOr (h : Good b p) : sepOr seps p.triv = seps := by rw [h.triv]; rfl

/-- A part that is printed with a text first. -/
def firmNode (g : Green) : Bool :=
  !((g.isNodeOf .OFFSET || g.isNodeOf .ELEM_EXPR) && !g.hasTok .KEYWORD || g.isNodeOf .BLOCK_IF_THEN && !g.hasTok .L_PAREN)

/-- What is known of a child. -/
structure SpotC (o : FmtOpts) (s : Spot) : Prop where
  quiet : Q o s
  tok : ∀ k t, s.g = .tok k t → isBlank s.g = false → inked t = true
  loose : isBlank s.g = false → Loose s.d
  firm : isBlank s.g = false → firmNode s.g = true → Firm s.d

/-- Several steps. -/
theorem good_fold {F : Pr → Spot → Pr} : ∀ {l : List Spot} {p : Pr}, Good b p →
    (∀ p s, s ∈ l → Good b p → Good b (F p s)) → Good b (l.foldl F p)
  | [], _, h, _ => h
  | s :: l, p, h, hF => good_fold (l := l) (p := F p s) (hF p s (.head _) h) fun p s hs => hF p s (.tail _ hs)

section
variable (hc : ∀ s ∈ ss, SpotC o s)
include hc

theorem tok_ink {s : Spot} (hs : s ∈ ss) (hk : isBlank (.tok k []) = false) (hg : s.g.isTokOf k = true) : inked s.g.text = true := by
  cases h : s.g with
  | node _ _ => rw [h] at hg; cases hg
  | tok k' t =>
    rw [h] at hg
    simp only [Green.isTokOf, beq_iff_eq] at hg
    subst hg
    refine (hc s hs).tok k' t h ?_
    rw [h]; revert hk; cases k' <;> simp [isBlank]

theorem good_lparen (h : Good b p) : Good b (p.lparen o ss) := by
  unfold Pr.lparen
  split
  · rename_i s hs
    exact h.near (firm_text rfl).loose (hc s (from_tok s hs)).quiet.2
  · exact h

theorem start_lparen (hl : (tokSpot .L_PAREN ss).isSome = true) : Good true (Pr.init.lparen o ss) := by
  unfold Pr.lparen
  obtain ⟨s, hs⟩ := Option.isSome_iff_exists.mp hl
  rw [hs]
  exact ⟨(hc s (from_tok s hs)).quiet.2, rfl⟩

theorem good_kw (h : Good b p) (hw : inked w = true) : Good b (p.kw o ss w) := by
  unfold Pr.kw Pr.word
  split
  · rename_i s hs
    rw [h.triv, List.append_nil]
    exact h.near (firm_text hw).loose (hc s (from_tok s hs)).quiet.2
  · exact h

/-- The opening parenthesis and the keyword, or one of them. -/
theorem start (hl : (tokSpot .L_PAREN ss).isSome = true ∨ (tokSpot .KEYWORD ss).isSome = true) (hw : inked w = true) :
    Good true ((Pr.init.lparen o ss).kw o ss w) := by
  cases h : (tokSpot .L_PAREN ss).isSome with
  | true => exact good_kw hc (start_lparen hc h) hw
  | false =>
    have h0 : tokSpot .L_PAREN ss = none := by simpa using h
    have h1 : (tokSpot .KEYWORD ss).isSome = true := by rcases hl with hl | hl; · rw [h] at hl; cases hl
                                                        · exact hl
    obtain ⟨s, hs⟩ := Option.isSome_iff_exists.mp h1
    unfold Pr.lparen Pr.kw Pr.word
    rw [h0, hs]
    refine ⟨(hc s (from_tok s hs)).quiet.2, ?_⟩
    simp only [Pr.init, List.nil_append, runL_one]
    exact firm_text hw

theorem good_tok (h : Good b p) {x : Option Spot} (hk : isBlank (.tok k []) = false) (hx : ∀ s, x = some s → s ∈ ss ∧ s.g.isTokOf k = true)
    (hs : SepOk [sep]) : Good b (p.tok? o sep x) := by
  cases x with
  | none => exact h
  | some s =>
    obtain ⟨h1, h2⟩ := hx s rfl
    unfold Pr.tok? Pr.tok Pr.tokAs
    simp only
    rw [h.sepOr]
    exact h.join hs (firm_text (tok_ink hc h1 hk h2)) (hc s h1).quiet.2

theorem good_word (h : Good b p) {x : Option Spot} (hx : From ss x) (hw : inked w = true) (hs : SepOk [sep]) :
    Good b (p.tokAs? o sep w x) := by
  cases x with
  | none => exact h
  | some s =>
    unfold Pr.tokAs? Pr.tokAs
    simp only
    rw [h.sepOr]
    exact h.join hs (firm_text hw) (hc s (hx s rfl)).quiet.2

theorem good_name (h : Good b p) {x : Option Spot} (hk : isBlank (.tok k []) = false) (hx : ∀ s, x = some s → s ∈ ss ∧ s.g.isTokOf k = true) :
    Good b (fmtInstrName o x p) := by
  cases x with
  | none => exact h
  | some s =>
    obtain ⟨h1, h2⟩ := hx s rfl
    unfold fmtInstrName
    simp only
    rw [h.triv, List.append_nil]
    exact h.near (firm_text (tok_ink hc h1 hk h2)).loose (hc s h1).quiet.2

theorem good_ref (h : Good b p) {x : Option Spot} (hk : isBlank (.tok k []) = false) (hx : ∀ s, x = some s → s ∈ ss ∧ s.g.isTokOf k = true) :
    Good b (fmtRefType o x p) := by
  cases x with
  | none => exact h
  | some s =>
    obtain ⟨h1, h2⟩ := hx s rfl
    exact h.near (firm_text (tok_ink hc h1 hk h2)).loose (hc s h1).quiet.2

theorem good_part1 (h : Good b p) {s : Spot} (hs : s ∈ ss) (hb : isBlank s.g = false) (hf : firmNode s.g = true) (hm : SepOk seps) :
    Good b (p.part o seps s) := by
  unfold Pr.part
  rw [h.sepOr]
  exact h.join hm ((hc s hs).firm hb hf) (hc s hs).quiet.1

theorem good_part (h : Good b p) {x : Option Spot} (hx : ∀ s, x = some s → s ∈ ss ∧ isBlank s.g = false ∧ firmNode s.g = true)
    (hm : SepOk seps) : Good b (p.part? o seps x) := by
  cases x with
  | none => exact h
  | some s => exact good_part1 hc h (hx s rfl).1 (hx s rfl).2.1 (hx s rfl).2.2 hm

theorem good_parts (h : Good b p) {l : List Spot} (hx : ∀ s ∈ l, s ∈ ss ∧ isBlank s.g = false ∧ firmNode s.g = true) (hm : SepOk seps) :
    Good b (p.parts o seps l) :=
  good_fold h fun _ s hs hp => good_part1 hc hp (hx s hs).1 (hx s hs).2.1 (hx s hs).2.2 hm

theorem good_toks (h : Good b p) (hk : isBlank (.tok k []) = false) (hs : SepOk [sep]) : Good b (p.toks o sep (tokSpots k ss)) :=
  good_fold h fun p s hm hp => by
    have := good_tok (o := o) (sep := sep) (x := some s) hc hp hk (fun s' h => by cases h; exact List.mem_filter.mp hm) hs
    exact this

theorem good_nested (h : Good b p) {l : List Spot} (hx : ∀ s ∈ l, s ∈ ss ∧ isBlank s.g = false ∧ firmNode s.g = true) :
    Good b (p.nested o l) := by
  have hq := good_parts (o := o) (seps := [.hardLine]) (p := ⟨[], p.triv⟩) (b := false) hc ⟨h.triv, rfl⟩ hx sep_hard
  exact h.near (d := .nest _ (.list _)) (by simpa [Loose, runD] using hq.docs) hq.triv

theorem good_rparen (h : Good b p) : Good b (p.rparen? o ss) := by
  unfold Pr.rparen?
  split
  · rename_i s hs
    rw [h.triv, List.append_nil]
    exact h.near (firm_text rfl).loose (hc s (from_tok s hs)).quiet.2
  · exact h

theorem good_own (h : Good b p) {s : Spot} (hs : s ∈ ss) (hb : isBlank s.g = false)
    (hf : s.g.hasTok .KEYWORD = true → firmNode s.g = true) : Good b (p.own o s) := by
  unfold Pr.own
  rw [h.triv]
  cases hk : s.g.hasTok .KEYWORD with
  | true =>
    simp only [List.isEmpty_nil, Bool.and_self, if_true]
    exact h.join sep_nestHard (d := .nest _ _) (by simpa [Firm, runD] using (hc s hs).firm hb (hf hk)) (hc s hs).quiet.1
  | false =>
    simp only [List.isEmpty_nil, Bool.and_false, Bool.false_eq_true, if_false, List.append_nil]
    exact h.near ((hc s hs).loose hb) (hc s hs).quiet.1

theorem good_then (h : Good b p) {x : Option Spot}
    (hx : ∀ s, x = some s → s ∈ ss ∧ isBlank s.g = false ∧ (s.g.hasTok .L_PAREN = true → firmNode s.g = true)) : Good b (fmtThen o x p) := by
  cases x with
  | none => exact h
  | some s =>
    obtain ⟨hs, hb, hf⟩ := hx s rfl
    unfold fmtThen
    simp only
    rw [h.triv]
    cases hk : s.g.hasTok .L_PAREN with
    | true =>
      simp only [List.isEmpty_nil, Bool.and_self, if_true]
      exact h.join sep_hard ((hc s hs).firm hb (hf hk)) (hc s hs).quiet.1
    | false =>
      simp only [List.isEmpty_nil, Bool.and_false, Bool.false_eq_true, if_false, List.append_nil]
      exact h.near ((hc s hs).loose hb) (hc s hs).quiet.1

end

theorem Good.close (h : Good true p) : Firm p.close := by
  unfold Pr.close
  rw [h.triv, List.append_nil]
  simp only [Firm, runD]
  rw [runL_append, h.docs]
  rfl

theorem Good.firm (h : Good true p) : Firm (.list p.docs) := by simpa [Firm, runD] using h.docs
theorem Good.loose (h : Good false p) : Loose (.list p.docs) := by simpa [Loose, runD] using h.docs
theorem Good.weak (h : Good true p) : Good false p := by
  have := runL_le p.docs (y := some false) (x := some true) (.inr (.inr ⟨rfl, rfl⟩))
  rw [h.docs] at this
  exact ⟨h.triv, ok_le this⟩

end Verif.Calm
