import Verif.Lemmas.CalmRoot
import Verif.Spec.Layout
/-!
Helper lemmas for C64: the number of closing parentheses with an opening one right after them is the same in all layouts of a document.
-/
namespace Verif.Calm
open Verif Spec

/-- One character: whether it closes a parenthesis, and the number of `)(` so far. -/
def scan1 (s : Bool × Nat) (c : Char) : Bool × Nat :=
  if c = ')' then (true, s.2) else if c = '(' then (false, if s.1 then s.2 + 1 else s.2) else (false, s.2)

/-- A text. -/
def scan (t : Text) (s : Bool × Nat) : Bool × Nat := t.foldl scan1 s

mutual
/-- A document. -/
def scanD : Doc → Bool × Nat → Bool × Nat
  | .nil, s => s
  | .text t, s => scan t s
  | .hardLine, s => (false, s.2)
  | .softLine, s => (false, s.2)
  | .emptyLine, s => (false, s.2)
  | .nest _ d, s => scanD d s
  | .list ds, s => scanDs ds s
  | .crash, s => s
/-- Documents. -/
def scanDs : List Doc → Bool × Nat → Bool × Nat
  | [], s => s
  | d :: ds, s => scanDs ds (scanD d s)
end

theorem scan_append (a b : Text) (s : Bool × Nat) : scan (a ++ b) s = scan b (scan a s) := by simp [scan]

theorem scan_blank : ∀ {t : Text}, IsLayout t → t ≠ [] → ∀ s, scan t s = (false, s.2)
  | [], _, h, _ => absurd rfl h
  | [c], h, _, s => by
    have h1 : c ≠ ')' := by rintro rfl; exact absurd (h _ (.head _)) (by decide)
    have h2 : c ≠ '(' := by rintro rfl; exact absurd (h _ (.head _)) (by decide)
    simp [scan, scan1, h1, h2]
  | c :: c' :: t, h, _, s => by
    have h1 : c ≠ ')' := by rintro rfl; exact absurd (h _ (.head _)) (by decide)
    have h2 : c ≠ '(' := by rintro rfl; exact absurd (h _ (.head _)) (by decide)
    have := scan_blank (t := c' :: t) (fun x hx => h x (.tail _ hx)) (by simp) (scan1 s c)
    simp only [scan, List.foldl_cons] at this ⊢
    rw [this]
    simp [scan1, h1, h2]

theorem scan_line {lb i : Text} (hlb : IsLineBreak lb) (hi : IsIndent i) (s : Bool × Nat) : scan (lb ++ i) s = (false, s.2) :=
  scan_blank (Txt.isLayout_line hlb hi) (by rcases hlb with rfl | rfl <;> simp) s

mutual
theorem prints_scan {lb : Text} (hlb : IsLineBreak lb) : ∀ {d : Doc} {out : Text}, Prints lb d out → ∀ s, scan out s = scanD d s
  | .nil, out, h, s => by simp only [Prints] at h; subst h; rfl
  | .text t, out, h, s => by simp only [Prints] at h; subst h; rfl
  | .hardLine, out, h, s => by
    simp only [Prints] at h
    obtain ⟨i, hi, rfl⟩ := h
    exact scan_line hlb hi s
  | .softLine, out, h, s => by
    simp only [Prints] at h
    rcases h with rfl | ⟨i, hi, rfl⟩
    · exact scan_blank (by intro c hc; simp only [List.mem_singleton] at hc; subst hc; decide) (by simp) s
    · exact scan_line hlb hi s
  | .emptyLine, out, h, s => by
    simp only [Prints] at h
    subst h
    have := scan_line hlb (i := []) (by intro c hc; cases hc) s
    rwa [List.append_nil] at this
  | .nest _ d, out, h, s => by simp only [Prints] at h; exact prints_scan hlb (d := d) h s
  | .list ds, out, h, s => by simp only [Prints] at h; exact printsL_scan hlb h s
  | .crash, out, h, s => by simp only [Prints] at h
theorem printsL_scan {lb : Text} (hlb : IsLineBreak lb) : ∀ {ds : List Doc} {out : Text}, PrintsL lb ds out → ∀ s, scan out s = scanDs ds s
  | [], out, h, s => by simp only [PrintsL] at h; subst h; rfl
  | d :: ds, out, h, s => by
    simp only [PrintsL] at h
    obtain ⟨a, b, rfl, h1, h2⟩ := h
    rw [scan_append, prints_scan hlb h1 s, printsL_scan hlb h2]
    rfl
end

/-- Decides, of the tree of a document, that what is printed has a `)(` that is not printed when it is formatted again. -/
def pairCheck (g : Green) : Bool :=
  match g with
  | .node .ROOT [.node .MODULE m] =>
    plainCheck g && wfB (strip g) && ((fmtDoc {} [] (.node .MODULE m)).texts == lexemes (.node .MODULE m)) &&
      (runD (fmtDoc {} [] (.node .MODULE m)) (some true) == some false) &&
      ((Green.node .MODULE (stripL m)).toks.all fun kt => kt.1 != .ERROR) &&
      ((scanD (format {} g) (false, 0)).2 != (scanD (.list [fmtDoc {} [] (.node .MODULE (stripL m)), .hardLine]) (false, 0)).2)
  | _ => false

theorem pair_differs {dbg dbg' : Bool} {src : Text} {g : Green} {d : Text} (h : parse dbg src = .tree g [] d) (hc : pairCheck g = true)
    {lb out : Text} (hlb : IsLineBreak lb) (ho : Prints lb (format {} g) out) :
    ∃ g', parse dbg' out = .tree g' [] [] ∧ ¬ Prints lb (format {} g') out := by
  unfold pairCheck at hc
  split at hc
  · rename_i m
    simp only [Bool.and_eq_true, beq_iff_eq, bne_iff_ne, ne_eq, List.all_eq_true] at hc
    obtain ⟨⟨⟨⟨⟨h1, h2⟩, h3⟩, h4⟩, h5⟩, h6⟩ := hc
    obtain ⟨g', h7, h8⟩ := C57_partial {} lb dbg dbg' src _ d out h ⟨rfl, wfB_sound _ h2⟩ (plainCheck_plain h1) hlb ho
    refine ⟨g', h7, fun ho' => ?_⟩
    obtain ⟨_, cs, he, _, hd, _, hm⟩ := C54_partial _ _ _ _ h
    cases he
    have hr := root_one (o := {}) (a := []) (b := []) (m := m) (.inl rfl) (.inl rfl)
    simp only [List.nil_append] at hr
    have hsp : Spaced (lexemes (.node .MODULE m)) true true out := by
      rw [hr] at ho
      have := prints_spaced hlb ho (b := true) (c := true) (by simp only [runD, runL]; rw [h4]; rfl)
      simpa [Doc.texts, textsL, h3] using this
    have hout : ∃ r, out = '(' :: r := by
      obtain ⟨r, hr'⟩ := module_head (o := {}) (b := []) (derivedL_iff.mp hd (.node .MODULE m) (by simp)).1
      rw [hr, hr'] at ho
      simp only [Prints, PrintsL] at ho
      obtain ⟨x, y, rfl, ⟨x1, x2, rfl, rfl, _⟩, _⟩ := ho
      exact ⟨_, rfl⟩
    have hlm : lexemes (.node .MODULE (stripL m)) = lexemes (.node .MODULE m) := lexemes_strip (.node .MODULE m)
    rw [reread h7 h8 h5 (by rw [hlm]; exact hsp) hout] at ho'
    exact h6 (by rw [← prints_scan hlb ho, ← prints_scan hlb ho'])
  · cases hc

/-- There are layouts. -/
theorem layout_exists (lb : Text) : ∃ L, IsLayoutFn lb L := by
  have : ∀ d : Doc, ∃ out, d.fine → Prints lb d out := fun d => by
    by_cases h : d.fine
    · obtain ⟨out, ho⟩ := prints_exists lb d h
      exact ⟨out, fun _ => ho⟩
    · exact ⟨[], fun h' => absurd h' h⟩
  exact ⟨fun d => Classical.choose (this d), fun d => Classical.choose_spec (this d)⟩

/-- Decides `CompactModule` for a module between white space. -/
def compactCheck (g : Green) : Bool :=
  match g with
  | .node .ROOT [.tok .WHITESPACE _, .node .MODULE m, .tok .WHITESPACE _] =>
    (Green.node .MODULE m).toks.all fun kt => kt.1 != .LINE_COMMENT && kt.1 != .BLOCK_COMMENT &&
      (kt.1 != .WHITESPACE || decide (kt.2.count '\n' < 2))
  | _ => false

theorem compactCheck_sound {g : Green} (h : compactCheck g = true) : CompactModule g := by
  unfold compactCheck at h
  split at h
  · rename_i t m t'
    refine ⟨[.tok .WHITESPACE t], m, [.tok .WHITESPACE t'], rfl, .inr ⟨_, rfl⟩, .inr ⟨_, rfl⟩, fun kt hkt => ?_⟩
    have := List.all_eq_true.mp h kt hkt
    simp only [Bool.and_eq_true, bne_iff_ne, ne_eq, Bool.or_eq_true, decide_eq_true_eq] at this
    exact ⟨this.1.1, this.1.2, fun hw => this.2.resolve_left fun h => h hw⟩
  · cases h

end Verif.Calm
