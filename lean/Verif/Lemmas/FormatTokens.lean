import Verif.Lemmas.FormatTrivia
import Verif.Lemmas.Derive
/-!
The steps of the printer functions and the tokens they print.
-/
namespace Verif
open Spec

variable {o : FmtOpts} {lb : Text} {ss : List Spot} {p : Pr} {fr : Bool} {pre is : List Item} {it : Item}

/-! ### Selecting children -/

/-- What a printer function selects from the children. -/
inductive Pick where
  | tok (k : Kind)
  | node (ks : List Kind)
  | word (w : Text)

namespace Pick

def on : Pick → Green → Bool
  | .tok k, g => g.isTokOf k
  | .node ks, .node k _ => ks.contains k
  | .node _, .tok _ _ => false
  | .word w, g => g.isTokOf .KEYWORD && g.text == w

/-- Every element that is such a term is selected. -/
def takes : Pick → Term → Bool
  | .tok k, .tok k' => k' == k
  | .tok k, .word _ => k == .KEYWORD
  | .node ks, .node k => ks.contains k
  | .word w, .word w' => w' == w
  | _, _ => false

/-- No element that is such a term is selected. -/
def skips : Pick → Term → Bool
  | .tok k, .tok k' => k' != k
  | .tok k, .word _ => k != .KEYWORD
  | .tok _, .node _ => true
  | .node ks, .node k => !ks.contains k
  | .node _, _ => true
  | .word _, .tok k => k != .KEYWORD
  | .word _, .node _ => true
  | .word w, .word w' => w' != w

/-- White space and comments are not selected. -/
def solid : Pick → Bool
  | .tok k => !triviaKinds.contains k
  | _ => true

/-- How many elements of a production are selected. -/
def count (q : Pick) : List Item → Option Nat
  | [] => some 0
  | .one ts :: is =>
    if ts.all q.takes then (count q is).map (· + 1) else if ts.all q.skips then count q is else none
  | .opt ts :: is => if ts.all q.skips then count q is else none
  | .many ts :: is => if ts.all q.skips then count q is else none

theorem takes_on {q : Pick} {t : Term} {g : Green} (h : q.takes t = true) (hg : t.is g) : q.on g = true := by
  cases q <;> cases t <;> cases g <;> simp_all [takes, Term.is, on, Green.isTokOf, Green.text]

theorem skips_on {q : Pick} {t : Term} {g : Green} (h : q.skips t = true) (hg : t.is g) : q.on g = false := by
  cases q <;> cases t <;> cases g <;> simp_all [skips, Term.is, on, Green.isTokOf, Green.text]
  exact fun h' => absurd h'.symm h

theorem on_solid {q : Pick} {g : Green} (hq : q.solid = true) (h : q.on g = true) : isBlank g = false := by
  cases g with
  | node k cs => rfl
  | tok k t =>
    cases q with
    | node ks => simp [on] at h
    | tok k' =>
      simp only [on, Green.isTokOf, beq_iff_eq] at h
      subst h
      simp only [solid, triviaKinds] at hq
      cases k <;> first | rfl | simp at hq
    | word w =>
      simp only [on, Green.isTokOf, Bool.and_eq_true, beq_iff_eq] at h
      rw [h.1]; rfl

theorem skips_all {q : Pick} {ts : List Term} {t : Term} {g : Green} (h : ts.all q.skips = true) (ht : t ∈ ts)
    (hg : t.is g) : q.on g = false := skips_on (List.all_eq_true.mp h t ht) hg

theorem takes_all {q : Pick} {ts : List Term} {t : Term} {g : Green} (h : ts.all q.takes = true) (ht : t ∈ ts)
    (hg : t.is g) : q.on g = true := takes_on (List.all_eq_true.mp h t ht) hg

theorem count_length {q : Pick} {is : List Item} {l : List Green} (h : Match is l) :
    ∀ n, q.count is = some n → (l.filter q.on).length = n := by
  induction h with
  | nil => intro n h; simp [count] at h; simp [h]
  | @one ts t g is l ht hg _ ih =>
    intro n h
    simp only [count] at h
    split at h
    · rename_i ha
      obtain ⟨m, hm, rfl⟩ := Option.map_eq_some_iff.mp h
      simp [List.filter_cons, takes_all ha ht hg, ih m hm]
    · split at h
      · rename_i ha
        simpa [List.filter_cons, skips_all ha ht hg] using ih n h
      · cases h
  | skip _ ih =>
    intro n h
    simp only [count] at h
    split at h
    · exact ih n h
    · cases h
  | opt ht hg _ ih =>
    intro n h
    simp only [count] at h
    split at h
    · rename_i ha
      simpa [List.filter_cons, skips_all ha ht hg] using ih n h
    · cases h
  | stop _ ih =>
    intro n h
    simp only [count] at h
    split at h
    · exact ih n h
    · cases h
  | more ht hg _ ih =>
    intro n h
    have h' := h
    simp only [count] at h
    split at h
    · rename_i ha
      simpa [List.filter_cons, skips_all ha ht hg] using ih n h'
    · cases h

end Pick

/-- The children that are not white space or comments. -/
def sig (ss : List Spot) : List Spot := ss.filter fun s => !isBlank s.g

/-- The selected children. -/
def sels (q : Pick) (ss : List Spot) : List Spot := ss.filter fun s => q.on s.g

/-- The `n`-th of the selected children. -/
def sel (q : Pick) (n : Nat) (ss : List Spot) : Option Spot := (sels q ss)[n]?

theorem sels_sig {q : Pick} (hq : q.solid = true) : sels q ss = sels q (sig ss) := by
  unfold sels sig
  rw [List.filter_filter]
  refine List.filter_congr fun s _ => ?_
  cases h : q.on s.g with
  | false => simp
  | true => simp [Pick.on_solid hq h]

theorem find_sel (q : Pick) : (ss.find? fun s => q.on s.g) = sel q 0 ss := by
  unfold sel sels
  rw [← List.head?_filter, List.head?_eq_getElem?]

theorem tokSpot_sel (k : Kind) : tokSpot k ss = sel (.tok k) 0 ss := find_sel (.tok k)
theorem tokSpots_sels (k : Kind) : tokSpots k ss = sels (.tok k) ss := rfl
theorem tokSpots_sel (k : Kind) (n : Nat) : (tokSpots k ss)[n]? = sel (.tok k) n ss := rfl
theorem wordSpot_sel (w : Text) : wordSpot w ss = sel (.word w) 0 ss := find_sel (.word w)

theorem isNodeOf_on (k : Kind) (g : Green) : g.isNodeOf k = (Pick.node [k]).on g := by
  cases g with
  | tok _ _ => rfl
  | node k' cs => rw [Bool.eq_iff_iff]; simp [Green.isNodeOf, Pick.on]

theorem nodeSpot_sel (k : Kind) : nodeSpot k ss = sel (.node [k]) 0 ss := by
  unfold nodeSpot
  rw [← find_sel]
  congr 1; funext s; exact isNodeOf_on k s.g

theorem nodeSpots_sels (k : Kind) : nodeSpots k ss = sels (.node [k]) ss := by
  unfold nodeSpots sels
  congr 1; funext s; exact isNodeOf_on k s.g

/-- The kinds of instructions, as a selection. -/
abbrev pickInstr : Pick := .node [.PLAIN_INSTR, .BLOCK_BLOCK, .BLOCK_LOOP, .BLOCK_IF]

theorem instrSpots_sels : instrSpots ss = sels pickInstr ss := by
  unfold instrSpots sels
  congr 1; funext s
  cases s.g with
  | tok _ _ => rfl
  | node k cs => rw [Bool.eq_iff_iff]; simp [Green.isInstr, Green.isNodeOf, Pick.on, or_assoc]

/-- The fields, as a selection. -/
abbrev pickField : Pick := .node [.MODULE_FIELD_DATA, .MODULE_FIELD_ELEM, .MODULE_FIELD_EXPORT, .MODULE_FIELD_FUNC,
  .MODULE_FIELD_GLOBAL, .MODULE_FIELD_IMPORT, .MODULE_FIELD_MEMORY, .MODULE_FIELD_START, .MODULE_FIELD_TABLE,
  .MODULE_FIELD_TYPE]

theorem fields_sels : (ss.filter fun s => s.g.isField) = sels pickField ss := by
  unfold sels
  congr 1; funext s
  cases s.g with
  | tok _ _ => rfl
  | node k cs => rw [Bool.eq_iff_iff]; simp [Green.isField, Green.isNodeOf, Pick.on, or_assoc]

abbrev pickExport : Pick := .node [.EXPORT_DESC_FUNC, .EXPORT_DESC_GLOBAL, .EXPORT_DESC_MEMORY, .EXPORT_DESC_TABLE]

theorem exportDesc_sel : (ss.find? fun s => s.g.isExportDesc) = sel pickExport 0 ss := by
  rw [← find_sel]
  congr 1; funext s
  cases s.g with
  | tok _ _ => rfl
  | node k cs => rw [Bool.eq_iff_iff]; simp [Green.isExportDesc, Green.isNodeOf, Pick.on, or_assoc]

abbrev pickImport : Pick := .node [.IMPORT_DESC_GLOBAL_TYPE, .IMPORT_DESC_MEMORY_TYPE, .IMPORT_DESC_TABLE_TYPE,
  .IMPORT_DESC_TYPE_USE]

theorem importDesc_sel : (ss.find? fun s => s.g.isImportDesc) = sel pickImport 0 ss := by
  rw [← find_sel]
  congr 1; funext s
  cases s.g with
  | tok _ _ => rfl
  | node k cs => rw [Bool.eq_iff_iff]; simp [Green.isImportDesc, Green.isNodeOf, Pick.on, or_assoc]

/-! ### Words -/

theorem lexemes_tok {k : Kind} {t : Text} (h : isBlank (.tok k t) = false) : lexemes (.tok k t) = [t] := by
  have : triviaKinds.contains k = false := by
    simp only [triviaKinds]
    cases k <;> first | rfl | simp [isBlank] at h
  simp only [lexemes, Green.toks, List.filter_cons, List.filter_nil, this, Bool.not_false, if_true, List.map_cons, List.map_nil]

theorem lexemes_blank {g : Green} (h : isBlank g = true) : lexemes g = [] := by
  cases g with
  | node k cs => simp [isBlank] at h
  | tok k t =>
    simp only [lexemes, Green.toks, triviaKinds]
    cases k <;> first | rfl | simp [isBlank] at h

theorem lexemes_node (k : Kind) (cs : List Green) : lexemes (.node k cs) = cs.flatMap lexemes := by
  have : ∀ cs, ((Green.toksL cs).filter fun kt => !triviaKinds.contains kt.1).map (·.2) = cs.flatMap lexemes := by
    intro cs
    induction cs with
    | nil => rfl
    | cons g cs ih => simp only [Green.toksL, List.filter_append, List.map_append, ih, List.flatMap_cons]; rfl
  simp only [lexemes, Green.toks, this]

/-- The tokens of the children. -/
def sigWords (ss : List Spot) : List Text := (sig ss).flatMap fun s => lexemes s.g

theorem sigWords_eq (ss : List Spot) : sigWords ss = (ss.map (·.g)).flatMap lexemes := by
  unfold sigWords sig
  induction ss with
  | nil => rfl
  | cons s ss ih =>
    rw [List.filter_cons]
    cases h : isBlank s.g with
    | true => simp [ih, lexemes_blank h]
    | false => simp [ih]

theorem sig_map (ss : List Spot) : (sig ss).map (·.g) = signif (ss.map (·.g)) := by
  unfold sig signif
  rw [List.filter_map]; rfl

/-! ### One step -/

/-- A part of which the document begins softly: it is or may be printed without a separator. -/
def SoftNode (g : Green) : Bool :=
  g.isNodeOf .PARAM || g.isNodeOf .RESULT ||
  (g.isNodeOf .OFFSET || g.isNodeOf .ELEM_EXPR) && !g.hasTok .KEYWORD ||
  g.isNodeOf .BLOCK_IF_THEN && !g.hasTok .L_PAREN

/-- What is known of a child. -/
structure SpotOk (lb : Text) (s : Spot) : Prop where
  lines : LinesEnd s.after
  toks : TokensOk s.after
  shape : ∀ k t, s.g = .tok k t → TokenShape k t
  text : ∀ k t, s.g = .tok k t → s.d = .text t
  doc : isBlank s.g = false → ∀ out, Prints lb s.d out → Tx (lexemes s.g) out
  soft : SoftNode s.g = true → ∀ out, Prints lb s.d out → Soft out

/-- What has been printed: the words, and pending trivia; with the flag, what is printed does not end in a word. -/
structure Pr.Good (lb : Text) (fr : Bool) (p : Pr) (ws : List Text) : Prop where
  docs : ∀ out, PrintsL lb p.docs out → Tx ws out ∧ (fr = true → Free out)
  triv : TrivOk lb p.triv

/-- A separator. -/
def IsSep (lb : Text) (ds : List Doc) : Prop := ∀ out, PrintsL lb ds out → Gap out

theorem isSep_space : IsSep lb [.space] := fun _ h => gap_space (printsL_one.mp h)
theorem isSep_hardLine (hlb : IsLineBreak lb) : IsSep lb [.hardLine] := fun _ h => gap_hardLine hlb (printsL_one.mp h)
theorem isSep_softLine (hlb : IsLineBreak lb) : IsSep lb [.softLine] := fun _ h => gap_softLine hlb (printsL_one.mp h)
theorem isSep_nest {n : Nat} {d : Doc} (h : IsSep lb [d]) : IsSep lb [.nest n d] := fun out ho =>
  h out (printsL_one.mpr (prints_nest.mp (printsL_one.mp ho)))

theorem isSep_sepOr {sep triv : List Doc} (h : IsSep lb sep) (ht : TrivOk lb triv) : IsSep lb (sepOr sep triv) := by
  unfold sepOr
  split
  · exact h
  · rename_i hne
    rcases ht with rfl | ht
    · exact absurd rfl hne
    · exact ht

theorem Pr.Good.weak {ws : List Text} (h : p.Good lb fr ws) : p.Good lb false ws :=
  ⟨fun out ho => ⟨(h.docs out ho).1, by simp⟩, h.triv⟩

theorem good_init : Pr.init.Good lb true [] :=
  ⟨fun out h => by simp only [Pr.init, PrintsL] at h; subst h; exact ⟨Tx.nil, fun _ => free_nil⟩, .inl rfl⟩

/-- The general step: a gap and a document. -/
theorem Pr.Good.join {ws vs : List Text} {m t : List Doc} {d : Doc} (h : p.Good lb fr ws) (hm : IsSep lb m)
    (hd : ∀ out, Prints lb d out → Tx vs out) (ht : TrivOk lb t) :
    (Pr.mk (p.docs ++ m ++ [d]) t).Good lb false (ws ++ vs) := by
  refine ⟨fun out ho => ⟨?_, by simp⟩, ht⟩
  rw [printsL_append, ] at ho
  obtain ⟨x, y, rfl, hx, hy⟩ := ho
  rw [printsL_append] at hx
  obtain ⟨a, b, rfl, ha, hb⟩ := hx
  exact (h.docs a ha).1.gap (hm b hb) (hd y (printsL_one.mp hy))

/-- The general step without a separator of its own. -/
theorem Pr.Good.near {ws vs : List Text} {m t : List Doc} {d : Doc} (h : p.Good lb fr ws) (hm : TrivOk lb m)
    (hd : ∀ out, Prints lb d out → Tx vs out) (hs : m = [] → fr = true ∨ ∀ out, Prints lb d out → Soft out)
    (ht : TrivOk lb t) :
    (Pr.mk (p.docs ++ m ++ [d]) t).Good lb false (ws ++ vs) := by
  by_cases hne : m = []
  · subst hne
    refine ⟨fun out ho => ⟨?_, by simp⟩, ht⟩
    simp only [List.append_nil] at ho
    rw [printsL_append] at ho
    obtain ⟨x, y, rfl, hx, hy⟩ := ho
    rw [printsL_one] at hy
    refine (h.docs x hx).1.append (hd y hy) ?_
    rcases hs rfl with hs | hs
    · exact .inl ((h.docs x hx).2 hs)
    · exact .inr (hs y hy)
  · refine h.join ?_ hd ht
    rcases hm with hm | hm
    · exact absurd hm hne
    · exact hm

variable (hlb : IsLineBreak lb) {s : Spot} {ws : List Text}

section
include hlb

theorem SpotOk.afterToken (h : SpotOk lb s) : TrivOk lb (afterToken o s.after) := afterToken_ok hlb h.lines h.toks
theorem SpotOk.afterNode (h : SpotOk lb s) : TrivOk lb (afterNode o s.after) := afterNode_ok hlb h.lines h.toks

theorem good_part {sep : List Doc} (h : p.Good lb fr ws) (hs : SpotOk lb s) (hb : isBlank s.g = false)
    (hsep : IsSep lb sep) : (p.part o sep s).Good lb false (ws ++ lexemes s.g) :=
  h.join (isSep_sepOr hsep h.triv) (hs.doc hb) (hs.afterNode hlb)

theorem good_tok {sep : Doc} {k : Kind} {t w : Text} (h : p.Good lb fr ws) (hs : SpotOk lb s) (hb : isBlank s.g = false)
    (hg : s.g = .tok k t) (hw : w = t) (hsep : IsSep lb [sep]) :
    (p.tokAs o sep w s).Good lb false (ws ++ lexemes s.g) := by
  subst hw
  refine h.join (isSep_sepOr hsep h.triv) ?_ (hs.afterToken hlb)
  rw [← hs.text k w hg]; exact hs.doc hb

theorem good_word {k : Kind} {t w : Text} (h : p.Good lb true ws) (hs : SpotOk lb s) (hb : isBlank s.g = false)
    (hg : s.g = .tok k t) (hw : w = t) :
    (Pr.mk (p.docs ++ p.triv ++ [.text w]) (Verif.afterToken o s.after)).Good lb false (ws ++ lexemes s.g) := by
  subst hw
  refine h.near h.triv ?_ (fun _ => .inl rfl) (hs.afterToken hlb)
  rw [← hs.text k w hg]; exact hs.doc hb

theorem good_first {k : Kind} {t : Text} (h : p.Good lb true ws) (hs : SpotOk lb s) (hb : isBlank s.g = false)
    (hg : s.g = .tok k t) :
    (Pr.mk (p.docs ++ [.text s.g.text]) (Verif.afterToken o s.after)).Good lb false (ws ++ lexemes s.g) := by
  have := h.near (m := []) (d := .text s.g.text) (vs := lexemes s.g) (.inl rfl) ?_ (fun _ => .inl rfl)
    (hs.afterToken hlb (o := o))
  · simpa using this
  · have : s.g.text = t := by rw [hg]; rfl
    rw [this, ← hs.text k t hg]; exact hs.doc hb

theorem good_head (h : p.Good lb true ws) (hs : SpotOk lb s) (hb : isBlank s.g = false) :
    (Pr.mk (p.docs ++ [s.d]) (Verif.afterNode o s.after)).Good lb false (ws ++ lexemes s.g) := by
  have := h.near (m := []) (d := s.d) (vs := lexemes s.g) (.inl rfl) (hs.doc hb) (fun _ => .inl rfl)
    (hs.afterNode hlb (o := o))
  simpa using this

theorem good_rparen {t : Text} (h : p.Good lb fr ws) (hs : SpotOk lb s) (hb : isBlank s.g = false)
    (hg : s.g = .tok .R_PAREN t) :
    (Pr.mk (p.docs ++ p.triv ++ [.text t!")"]) (Verif.afterToken o s.after)).Good lb false (ws ++ lexemes s.g) := by
  have ht : t = t!")" := hs.shape _ _ hg
  subst ht
  refine h.near h.triv ?_ (fun _ => .inr ?_) (hs.afterToken hlb)
  · rw [← hs.text _ _ hg]; exact hs.doc hb
  · intro out ho; simp only [Prints] at ho; subst ho; exact soft_rpar

theorem good_own (h : p.Good lb fr ws) (hs : SpotOk lb s) (hb : isBlank s.g = false)
    (hk : s.g.isNodeOf .OFFSET = true ∨ s.g.isNodeOf .ELEM_EXPR = true) :
    (p.own o s).Good lb false (ws ++ lexemes s.g) := by
  unfold Pr.own
  have hd : ∀ out, Prints lb (if s.g.hasTok .KEYWORD then .nest o.indent s.d else s.d) out → Prints lb s.d out := by
    intro out ho
    split at ho
    · exact prints_nest.mp ho
    · exact ho
  split
  · exact h.join (isSep_nest (isSep_hardLine hlb)) (fun out ho => hs.doc hb out (hd out ho)) (hs.afterNode hlb)
  · rename_i hc
    refine h.near h.triv (fun out ho => hs.doc hb out (hd out ho)) (fun he => .inr fun out ho => ?_) (hs.afterNode hlb)
    refine hs.soft ?_ out (hd out ho)
    simp only [he, List.isEmpty_nil, Bool.true_and, Bool.not_eq_true] at hc
    rcases hk with hk | hk <;> simp [SoftNode, hk, hc]

theorem good_then (h : p.Good lb fr ws) (hs : SpotOk lb s) (hk : s.g.isNodeOf .BLOCK_IF_THEN = true)
    (hb : isBlank s.g = false) : (fmtThen o (some s) p).Good lb false (ws ++ lexemes s.g) := by
  unfold fmtThen
  simp only
  split
  · exact h.join (isSep_hardLine hlb) (hs.doc hb) (hs.afterNode hlb)
  · rename_i hc
    refine h.near h.triv (hs.doc hb) (fun he => .inr (hs.soft ?_)) (hs.afterNode hlb)
    simp only [he, List.isEmpty_nil, Bool.true_and, Bool.not_eq_true] at hc
    simp [SoftNode, hk, hc]

theorem good_useFirst {sep : Doc} {lp : Bool} (h : p.Good lb fr ws) (hs : SpotOk lb s) (hb : isBlank s.g = false)
    (hk : s.g.isNodeOf .PARAM = true ∨ s.g.isNodeOf .RESULT = true) (hsep : IsSep lb [sep]) :
    (fmtUseFirst o sep lp s p).Good lb false (ws ++ lexemes s.g) := by
  have hsoft : ∀ out, Prints lb s.d out → Soft out := hs.soft (by rcases hk with hk | hk <;> simp [SoftNode, hk])
  unfold fmtUseFirst
  refine h.near ?_ (hs.doc hb) (fun _ => .inr hsoft) (hs.afterNode hlb)
  split
  · exact .inr hsep
  · split
    · exact h.triv
    · exact .inl rfl

/-- A step repeated. -/
theorem good_foldl {f : Pr → Spot → Pr} {P : Spot → Prop}
    (hf : ∀ (p : Pr) (ws : List Text) s, P s → p.Good lb false ws → (f p s).Good lb false (ws ++ lexemes s.g)) :
    ∀ (xs : List Spot) (p : Pr) (ws : List Text), (∀ s ∈ xs, P s) → p.Good lb false ws →
      (xs.foldl f p).Good lb false (ws ++ xs.flatMap fun s => lexemes s.g) := by
  intro xs
  induction xs with
  | nil => intro p ws _ h; simpa using h
  | cons s xs ih =>
    intro p ws hx h
    have := ih _ _ (fun s hs => hx s (.tail _ hs)) (hf p ws s (hx s (.head _)) h)
    simpa using this

theorem good_parts {sep : List Doc} {xs : List Spot} (h : p.Good lb fr ws)
    (hx : ∀ s ∈ xs, SpotOk lb s ∧ isBlank s.g = false) (hsep : IsSep lb sep) :
    (p.parts o sep xs).Good lb false (ws ++ xs.flatMap fun s => lexemes s.g) :=
  good_foldl hlb (P := fun s => SpotOk lb s ∧ isBlank s.g = false)
    (fun _ _ _ hs hp => good_part hlb hp hs.1 hs.2 hsep) xs p ws hx h.weak

end

/-! ### The whole sequence -/

/-- The children and what is known of them. -/
structure Kids (lb : Text) (cs : List Green) (ss : List Spot) : Prop where
  gs : ss.map (·.g) = cs
  ok : ∀ s ∈ ss, SpotOk lb s

/-- The children of the part `pre` of a production have been printed, those of the part `is` are left. -/
def At (lb : Text) (ss : List Spot) (pre is : List Item) (fr : Bool) (p : Pr) : Prop :=
  ∃ done rem, sig ss = done ++ rem ∧ Match pre (done.map (·.g)) ∧ Match is (rem.map (·.g)) ∧
    p.Good lb fr (done.flatMap fun s => lexemes s.g)

/-- The document prints all tokens of the children. -/
def Done (lb : Text) (ss : List Spot) (d : Doc) : Prop := ∀ out, Prints lb d out → Tx (sigWords ss) out

theorem At.weak (h : At lb ss pre is fr p) : At lb ss pre is false p := by
  obtain ⟨a, b, h1, h2, h3, h4⟩ := h
  exact ⟨a, b, h1, h2, h3, h4.weak⟩

theorem at_init (h : Match is ((sig ss).map (·.g))) : At lb ss [] is true Pr.init :=
  ⟨[], sig ss, rfl, .nil, h, by simpa using good_init⟩

theorem At.done (h : At lb ss pre [] fr p) : Done lb ss (.list p.docs) := by
  obtain ⟨a, b, h1, h2, h3, h4⟩ := h
  have hb : b = [] := by
    cases b with
    | nil => rfl
    | cons x b => simp only [List.map_cons] at h3; cases h3
  subst hb
  intro out ho
  have := (h4.docs out (prints_list.mp ho)).1
  unfold sigWords
  rw [h1]; simpa using this

theorem match_one_inv {ts : List Term} {l : List Green} (h : Match (.one ts :: is) l) :
    ∃ g r, l = g :: r ∧ (∃ t ∈ ts, t.is g) ∧ Match is r := by
  cases h with | one h1 h2 h3 => exact ⟨_, _, rfl, ⟨_, h1, h2⟩, h3⟩

theorem match_opt_inv {ts : List Term} {l : List Green} (h : Match (.opt ts :: is) l) :
    Match is l ∨ ∃ g r, l = g :: r ∧ (∃ t ∈ ts, t.is g) ∧ Match is r := by
  cases h with
  | skip h => exact .inl h
  | opt h1 h2 h3 => exact .inr ⟨_, _, rfl, ⟨_, h1, h2⟩, h3⟩

theorem match_many_inv {ts : List Term} {l : List Green} (h : Match (.many ts :: is) l) :
    ∃ a r, l = a ++ r ∧ (∀ g ∈ a, ∃ t ∈ ts, t.is g) ∧ Match is r := by
  generalize hp : Item.many ts :: is = p at h
  induction h with
  | nil => cases hp
  | one _ _ _ _ => cases hp
  | skip _ _ => cases hp
  | opt _ _ _ _ => cases hp
  | stop h _ => cases hp; exact ⟨[], _, rfl, by simp, h⟩
  | more h1 h2 _ ih =>
    obtain ⟨a, r, rfl, h3, h4⟩ := ih hp
    cases hp
    refine ⟨_ :: a, r, rfl, ?_, h4⟩
    intro g hg
    rcases List.mem_cons.mp hg with rfl | hg
    · exact ⟨_, h1, h2⟩
    · exact h3 g hg

theorem match_many_of {ts : List Term} : ∀ {l : List Green}, (∀ g ∈ l, ∃ t ∈ ts, t.is g) → Match [.many ts] l
  | [], _ => .stop .nil
  | g :: l, h => by
    obtain ⟨t, h1, h2⟩ := h g (.head _)
    exact .more h1 h2 (match_many_of fun g hg => h g (.tail _ hg))

theorem map_eq_cons' {l : List Spot} {g : Green} {r : List Green} (h : l.map (·.g) = g :: r) :
    ∃ s l', l = s :: l' ∧ s.g = g ∧ l'.map (·.g) = r := by
  cases l with
  | nil => cases h
  | cons s l => simp only [List.map_cons, List.cons.injEq] at h; exact ⟨s, l, rfl, h.1, h.2⟩

theorem sels_length {q : Pick} {n : Nat} {l : List Spot} (h : Match is (l.map (·.g))) (hc : q.count is = some n) :
    (sels q l).length = n := by
  have := Pick.count_length h n hc
  rw [List.filter_map, List.length_map] at this
  exact this

theorem sels_append (q : Pick) (a b : List Spot) : sels q (a ++ b) = sels q a ++ sels q b := by simp [sels]

theorem sig_mem {s : Spot} (h : s ∈ sig ss) : s ∈ ss ∧ isBlank s.g = false := by
  unfold sig at h
  obtain ⟨h1, h2⟩ := List.mem_filter.mp h
  exact ⟨h1, by simpa using h2⟩

/-- The item is one whose element, if there is one, is the `n`-th selected child. -/
def stepOk (q : Pick) (n : Nat) (pre : List Item) (it : Item) (is : List Item) : Bool :=
  q.solid && decide (q.count pre = some n) && match it with
  | .one ts => ts.all q.takes
  | .opt ts => ts.all q.takes && decide (q.count is = some 0)
  | .many _ => false

/-- The element is one of the item's terms. -/
def Spec.Item.Has (it : Item) (g : Green) : Prop :=
  match it with
  | .one ts => ∃ t ∈ ts, t.is g
  | .opt ts => ∃ t ∈ ts, t.is g
  | .many ts => ∃ t ∈ ts, t.is g

/-- A step on one child that has to be there. -/
theorem at_one {q : Pick} {n : Nat} {ts : List Term} {fr' : Bool} {F : Option Spot → Pr}
    (h : At lb ss pre (.one ts :: is) fr p) (hc : stepOk q n pre (.one ts) is = true)
    (hF : ∀ s ∈ ss, isBlank s.g = false → (Item.one ts).Has s.g → ∀ ws, p.Good lb fr ws →
      (F (some s)).Good lb fr' (ws ++ lexemes s.g)) :
    At lb ss (pre ++ [.one ts]) is fr' (F (sel q n ss)) := by
  obtain ⟨done, rem, h1, h2, h3, h4⟩ := h
  simp only [stepOk, Bool.and_eq_true, decide_eq_true_eq] at hc
  obtain ⟨⟨hq, hn⟩, ht⟩ := hc
  obtain ⟨g, r, h5, ⟨t, h6, h7⟩, h8⟩ := match_one_inv h3
  obtain ⟨s, rem', rfl, rfl, rfl⟩ := map_eq_cons' h5
  have hs : s ∈ sig ss := by rw [h1]; simp
  have hsel : sel q n ss = some s := by
    unfold sel
    rw [sels_sig hq, h1, sels_append, List.getElem?_append_right (by rw [sels_length h2 hn]; omega), sels_length h2 hn,
      Nat.sub_self]
    simp [sels, List.filter_cons, Pick.takes_all ht h6 h7]
  rw [hsel]
  refine ⟨done ++ [s], rem', by simp [h1], ?_, h8, ?_⟩
  · rw [List.map_append]; exact match_append h2 (.one h6 h7 .nil)
  · have := hF s (sig_mem hs).1 (sig_mem hs).2 ⟨t, h6, h7⟩ _ h4
    simpa using this

/-- A step on one child that may be missing. -/
theorem at_sel {q : Pick} {n : Nat} {F : Option Spot → Pr}
    (h : At lb ss pre (it :: is) fr p) (hc : stepOk q n pre it is = true) (h0 : F none = p)
    (hF : ∀ s ∈ ss, isBlank s.g = false → it.Has s.g → ∀ ws, p.Good lb fr ws →
      (F (some s)).Good lb false (ws ++ lexemes s.g)) :
    At lb ss (pre ++ [it]) is false (F (sel q n ss)) := by
  cases it with
  | one ts => exact at_one h hc hF
  | many ts => simp [stepOk] at hc
  | opt ts =>
    obtain ⟨done, rem, h1, h2, h3, h4⟩ := h
    simp only [stepOk, Bool.and_eq_true, decide_eq_true_eq] at hc
    obtain ⟨⟨hq, hn⟩, ht, hz⟩ := hc
    rcases match_opt_inv h3 with h5 | ⟨g, r, h5, ⟨t, h6, h7⟩, h8⟩
    · have hsel : sel q n ss = none := by
        unfold sel
        rw [sels_sig hq, h1, sels_append]
        refine List.getElem?_eq_none ?_
        rw [List.length_append, sels_length h2 hn, sels_length h5 hz]; simp
      rw [hsel, h0]
      refine ⟨done, rem, h1, ?_, h5, h4.weak⟩
      have := match_append h2 (.skip .nil : Match [.opt ts] [])
      simpa using this
    · obtain ⟨s, rem', rfl, rfl, rfl⟩ := map_eq_cons' h5
      have hs : s ∈ sig ss := by rw [h1]; simp
      have hsel : sel q n ss = some s := by
        unfold sel
        rw [sels_sig hq, h1, sels_append, List.getElem?_append_right (by rw [sels_length h2 hn]; omega), sels_length h2 hn,
          Nat.sub_self]
        simp [sels, List.filter_cons, Pick.takes_all ht h6 h7]
      rw [hsel]
      refine ⟨done ++ [s], rem', by simp [h1], ?_, h8, ?_⟩
      · rw [List.map_append]; exact match_append h2 (.opt h6 h7 .nil)
      · have := hF s (sig_mem hs).1 (sig_mem hs).2 ⟨t, h6, h7⟩ _ h4
        simpa using this

/-- A step on a child that is missing. -/
theorem sel_none {q : Pick} {n : Nat} (h : At lb ss pre is fr p)
    (hc : (q.solid && match q.count (pre ++ is) with | some m => decide (m ≤ n) | none => false) = true) : sel q n ss = none := by
  obtain ⟨done, rem, h1, h2, h3, h4⟩ := h
  simp only [Bool.and_eq_true] at hc
  obtain ⟨hq, hc⟩ := hc
  split at hc
  · rename_i m hm
    unfold sel
    rw [sels_sig hq, h1]
    refine List.getElem?_eq_none ?_
    rw [sels_length (is := pre ++ is) (by rw [List.map_append]; exact match_append h2 h3) hm]
    simpa using hc
  · cases hc

/-- No child is selected. -/
theorem sels_none {q : Pick} (h : At lb ss pre is fr p)
    (hc : (q.solid && decide (q.count (pre ++ is) = some 0)) = true) : sels q ss = [] := by
  obtain ⟨done, rem, h1, h2, h3, h4⟩ := h
  simp only [Bool.and_eq_true, decide_eq_true_eq] at hc
  rw [sels_sig hc.1, h1]
  exact List.length_eq_zero_iff.mp (sels_length (is := pre ++ is) (by rw [List.map_append]; exact match_append h2 h3) hc.2)

/-- The item is one whose elements are the selected children. -/
def stepsOk (q : Pick) (pre : List Item) (it : Item) (is : List Item) : Bool :=
  q.solid && decide (q.count pre = some 0) && decide (q.count is = some 0) && match it with
  | .many ts => ts.all q.takes
  | _ => false

/-- A step on many children. -/
theorem at_many {q : Pick} {F : List Spot → Pr} (h : At lb ss pre (it :: is) fr p) (hc : stepsOk q pre it is = true)
    (hF : ∀ xs : List Spot, (∀ s ∈ xs, s ∈ ss ∧ isBlank s.g = false ∧ it.Has s.g) → ∀ ws, p.Good lb fr ws →
      (F xs).Good lb false (ws ++ xs.flatMap fun s => lexemes s.g)) :
    At lb ss (pre ++ [it]) is false (F (sels q ss)) := by
  cases it with
  | one ts => simp [stepsOk] at hc
  | opt ts => simp [stepsOk] at hc
  | many ts =>
    simp only [stepsOk, Bool.and_eq_true, decide_eq_true_eq] at hc
    obtain ⟨⟨⟨hq, hn⟩, hz⟩, ht⟩ := hc
    obtain ⟨done, rem, h1, h2, h3, h4⟩ := h
    obtain ⟨a, r, h5, h6, h7⟩ := match_many_inv h3
    obtain ⟨xs, rem', rfl, rfl, rfl⟩ := List.map_eq_append_iff.mp h5
    have hin : ∀ s ∈ xs, ∃ t ∈ ts, t.is s.g := fun s hs => h6 _ (List.mem_map_of_mem hs)
    have hall : sels q xs = xs := by
      unfold sels
      refine List.filter_eq_self.mpr fun s hs => ?_
      obtain ⟨t, k1, k2⟩ := hin s hs
      exact Pick.takes_all ht k1 k2
    have : sels q ss = xs := by
      rw [sels_sig hq, h1, sels_append, sels_append, hall,
        List.length_eq_zero_iff.mp (sels_length h2 hn), List.length_eq_zero_iff.mp (sels_length h7 hz)]
      simp
    rw [this]
    refine ⟨done ++ xs, rem', by simp [h1], ?_, h7, ?_⟩
    · rw [List.map_append]; exact match_append h2 (match_many_of h6)
    · have := hF xs (fun s hs => by
        have hs' : s ∈ sig ss := by rw [h1]; simp [hs]
        exact ⟨(sig_mem hs').1, (sig_mem hs').2, hin s hs⟩) _ h4
      simpa using this

end Verif
