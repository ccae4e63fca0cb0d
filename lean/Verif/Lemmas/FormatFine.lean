import Verif.Lemmas.FormatComment
import Verif.Props.C33
/-!
The document of a tree whose tokens have their shapes contains no panic.
-/
namespace Verif
open Spec

theorem fineL_iff {ds : List Doc} : fineL ds ↔ ∀ d ∈ ds, d.fine := by
  induction ds with
  | nil => simp [fineL]
  | cons d ds ih => simp [fineL, ih]

theorem fineL_append {a b : List Doc} : fineL (a ++ b) ↔ fineL a ∧ fineL b := by
  simp only [fineL_iff, List.mem_append]
  exact ⟨fun h => ⟨fun d hd => h d (.inl hd), fun d hd => h d (.inr hd)⟩, fun h d hd => hd.elim (h.1 d) (h.2 d)⟩

theorem fineL_flatMap {α : Type} {f : α → List Doc} {l : List α} (h : ∀ x ∈ l, fineL (f x)) :
    fineL (l.flatMap f) := by
  induction l with
  | nil => simp [fineL]
  | cons x xs ih =>
    rw [List.flatMap_cons, fineL_append]
    exact ⟨h x List.mem_cons_self, ih fun y hy => h y (List.mem_cons_of_mem _ hy)⟩

theorem fine_text (t : Text) : (Doc.text t).fine := by simp [Doc.fine]

theorem fine_space : Doc.space.fine := by simp [Doc.space, Doc.fine]

theorem fine_list {ds : List Doc} (h : fineL ds) : (Doc.list ds).fine := by simpa [Doc.fine] using h

theorem fine_nest {n : Nat} {d : Doc} (h : d.fine) : (Doc.nest n d).fine := by simpa [Doc.fine] using h

theorem fineL_one {d : Doc} (h : d.fine) : fineL [d] := by simpa [fineL] using h

/-- The tokens of the list have their shapes. -/
def Shapes (gs : List Green) : Prop := ∀ g ∈ gs, ∀ kt ∈ g.toks, TokenShape kt.1 kt.2

theorem triviaAfter_mem {gs : List Green} {x : Kind × Text} (h : x ∈ triviaAfter gs) : .tok x.1 x.2 ∈ gs := by
  induction gs with
  | nil => simp [triviaAfter] at h
  | cons g gs ih =>
    simp only [triviaAfter] at h
    split at h
    · rename_i y hy
      rcases List.mem_cons.mp h with rfl | h
      · cases g with
        | tok k t =>
          simp only [fmtTrivia] at hy
          split at hy
          · cases hy; exact List.mem_cons_self
          · cases hy
        | node _ _ => simp [fmtTrivia] at hy
      · exact List.mem_cons_of_mem _ (ih h)
    · cases h

theorem triviaDocs_fine {o : FmtOpts} {x : Kind × Text} (h : TokenShape x.1 x.2) : fineL (triviaDocs o x) := by
  obtain ⟨k, t⟩ := x
  simp only at h
  simp only [triviaDocs]
  split
  · obtain ⟨r, hr, _⟩ := C33_line o t h
    exact fineL_one (by rw [hr]; exact fine_text _)
  · obtain ⟨r, hr, _⟩ := C33_block o t h
    exact fineL_one (by rw [hr]; exact fine_text _)
  · split <;> simp [fineL, Doc.fine, Doc.space]
  · exact fineL_one (fine_text _)
  · trivial

theorem shapes_trivia {gs : List Green} (h : Shapes gs) {x : Kind × Text} (hx : x ∈ triviaAfter gs) :
    TokenShape x.1 x.2 := h _ (triviaAfter_mem hx) _ (by simp [Green.toks])

theorem afterNode_fine {o : FmtOpts} {gs : List Green} (h : Shapes gs) : fineL (afterNode o gs) := by
  simp only [afterNode]
  split
  · trivial
  · rw [fineL_append]
    refine ⟨?_, fineL_flatMap fun x hx => triviaDocs_fine (shapes_trivia h hx)⟩
    split <;> simp [fineL, Doc.fine]

theorem afterToken_fine {o : FmtOpts} {gs : List Green} (h : Shapes gs) : fineL (afterToken o gs) := by
  simp only [afterToken]
  split
  · trivial
  · exact ⟨fine_space, fineL_flatMap fun x hx =>
      triviaDocs_fine (shapes_trivia h ((List.dropWhile_sublist _).mem hx))⟩

/-- The child's document contains no panic, and the tokens after it have their shapes. -/
def SpotFine (s : Spot) : Prop := s.d.fine ∧ Shapes s.after ∧ (∀ kt ∈ s.g.toks, TokenShape kt.1 kt.2)

/-- No panic in the two vectors. -/
def Pr.fine (p : Pr) : Prop := fineL p.docs ∧ fineL p.triv

section steps
variable {o : FmtOpts} {ss : List Spot} {p : Pr}

theorem Pr.fine_init : Pr.init.fine := ⟨trivial, trivial⟩

theorem fine_sepOr {sep triv : List Doc} (h1 : fineL sep) (h2 : fineL triv) : fineL (sepOr sep triv) := by
  unfold sepOr; split <;> assumption

theorem find_fine {f : Spot → Bool} (h : ∀ s ∈ ss, SpotFine s) {s : Spot} (hs : ss.find? f = some s) : SpotFine s :=
  h s (List.mem_of_find?_eq_some hs)

theorem filter_fine {f : Spot → Bool} (h : ∀ s ∈ ss, SpotFine s) : ∀ s ∈ ss.filter f, SpotFine s :=
  fun s hs => h s (List.mem_filter.mp hs).1

theorem Pr.fine_docs {q : Pr} {ds ts : List Doc} (h : p.fine) (hd : fineL ds) (ht : fineL ts)
    (hq : q = ⟨p.docs ++ ds, ts⟩) : q.fine := by
  rw [hq]; exact ⟨fineL_append.mpr ⟨h.1, hd⟩, ht⟩

theorem Pr.fine_lparen (h : ∀ s ∈ ss, SpotFine s) (hp : p.fine) : (p.lparen o ss).fine := by
  unfold Pr.lparen
  split
  · rename_i s hs
    exact ⟨fineL_append.mpr ⟨hp.1, fineL_one (fine_text _)⟩, afterToken_fine (find_fine h hs).2.1⟩
  · exact hp

theorem Pr.fine_word {x : Option Spot} {w : Text} (h : ∀ s, x = some s → SpotFine s) (hp : p.fine) :
    (p.word o x w).fine := by
  unfold Pr.word
  split
  · exact ⟨fineL_append.mpr ⟨fineL_append.mpr hp, fineL_one (fine_text _)⟩, afterToken_fine (h _ rfl).2.1⟩
  · exact hp

theorem Pr.fine_kw {w : Text} (h : ∀ s ∈ ss, SpotFine s) (hp : p.fine) : (p.kw o ss w).fine :=
  Pr.fine_word (fun _ hs => find_fine h hs) hp

theorem Pr.fine_tokAs {sep : Doc} {w : Text} {s : Spot} (hs : SpotFine s) (hd : sep.fine) (hp : p.fine) :
    (p.tokAs o sep w s).fine :=
  ⟨fineL_append.mpr ⟨fineL_append.mpr ⟨hp.1, fine_sepOr (fineL_one hd) hp.2⟩, fineL_one (fine_text _)⟩,
    afterToken_fine hs.2.1⟩

theorem Pr.fine_tok? {sep : Doc} {x : Option Spot} (h : ∀ s, x = some s → SpotFine s) (hd : sep.fine)
    (hp : p.fine) : (p.tok? o sep x).fine := by
  unfold Pr.tok?
  split
  · exact Pr.fine_tokAs (h _ rfl) hd hp
  · exact hp

theorem Pr.fine_toks {sep : Doc} {xs : List Spot} (h : ∀ s ∈ xs, SpotFine s) (hd : sep.fine)
    (hp : p.fine) : (p.toks o sep xs).fine := by
  unfold Pr.toks
  induction xs generalizing p with
  | nil => exact hp
  | cons s xs ih =>
    exact ih (fun t ht => h t (List.mem_cons_of_mem _ ht)) (Pr.fine_tokAs (h s List.mem_cons_self) hd hp)

theorem Pr.fine_part {sep : List Doc} {s : Spot} (hs : SpotFine s) (hd : fineL sep) (hp : p.fine) :
    (p.part o sep s).fine :=
  ⟨fineL_append.mpr ⟨fineL_append.mpr ⟨hp.1, fine_sepOr hd hp.2⟩, fineL_one hs.1⟩, afterNode_fine hs.2.1⟩

theorem Pr.fine_part? {sep : List Doc} {x : Option Spot} (h : ∀ s, x = some s → SpotFine s) (hd : fineL sep)
    (hp : p.fine) : (p.part? o sep x).fine := by
  unfold Pr.part?
  split
  · exact Pr.fine_part (h _ rfl) hd hp
  · exact hp

/-- A fold of fine steps is fine. -/
theorem Pr.fine_foldl {f : Pr → Spot → Pr} {xs : List Spot} (h : ∀ s ∈ xs, SpotFine s)
    (hf : ∀ p s, SpotFine s → p.fine → (f p s).fine) (hp : p.fine) : (xs.foldl f p).fine := by
  induction xs generalizing p with
  | nil => exact hp
  | cons s xs ih => exact ih (fun t ht => h t (List.mem_cons_of_mem _ ht)) (hf _ _ (h s List.mem_cons_self) hp)

theorem Pr.fine_parts {sep : List Doc} {xs : List Spot} (h : ∀ s ∈ xs, SpotFine s) (hd : fineL sep)
    (hp : p.fine) : (p.parts o sep xs).fine :=
  Pr.fine_foldl h (fun _ _ hs hp => Pr.fine_part hs hd hp) hp

theorem Pr.fine_nested {xs : List Spot} (h : ∀ s ∈ xs, SpotFine s) (hp : p.fine) : (p.nested o xs).fine := by
  have hq : (Pr.parts o [.hardLine] xs ⟨[], p.triv⟩).fine :=
    Pr.fine_parts h (by simp [fineL, Doc.fine]) ⟨trivial, hp.2⟩
  exact ⟨fineL_append.mpr ⟨hp.1, fineL_one (fine_nest (fine_list hq.1))⟩, hq.2⟩

theorem Pr.fine_rparen? (h : ∀ s ∈ ss, SpotFine s) (hp : p.fine) : (p.rparen? o ss).fine := by
  unfold Pr.rparen?
  split
  · rename_i s hs
    exact ⟨fineL_append.mpr ⟨fineL_append.mpr hp, fineL_one (fine_text _)⟩, afterToken_fine (find_fine h hs).2.1⟩
  · exact hp

theorem Pr.fine_close (hp : p.fine) : p.close.fine :=
  fine_list (fineL_append.mpr ⟨fineL_append.mpr hp, fineL_one (fine_text _)⟩)

theorem Pr.fine_own {s : Spot} (hs : SpotFine s) (hp : p.fine) : (p.own o s).fine := by
  refine ⟨fineL_append.mpr ⟨fineL_append.mpr ⟨hp.1, ?_⟩, fineL_one ?_⟩, afterNode_fine hs.2.1⟩
  · split
    · simp [fineL, Doc.fine]
    · exact hp.2
  · split
    · exact fine_nest hs.1
    · exact hs.1

theorem Pr.fine_own? {x : Option Spot} (h : ∀ s, x = some s → SpotFine s) (hp : p.fine) : (p.own? o x).fine := by
  unfold Pr.own?
  split
  · exact Pr.fine_own (h _ rfl) hp
  · exact hp

theorem Pr.fine_owns {xs : List Spot} (h : ∀ s ∈ xs, SpotFine s) (hp : p.fine) : (p.owns o xs).fine :=
  Pr.fine_foldl h (fun _ _ hs hp => Pr.fine_own hs hp) hp

theorem fine_fmtMin {x : Option Spot} (h : ∀ s, x = some s → SpotFine s) (hp : p.fine) : (fmtMin o x p).fine := by
  unfold fmtMin
  split
  · exact ⟨fineL_append.mpr ⟨hp.1, fineL_one (fine_text _)⟩, afterToken_fine (h _ rfl).2.1⟩
  · exact hp

theorem fine_fmtHead {x : Option Spot} (h : ∀ s, x = some s → SpotFine s) (hp : p.fine) : (fmtHead o x p).fine := by
  unfold fmtHead
  split
  · exact ⟨fineL_append.mpr ⟨hp.1, fineL_one (h _ rfl).1⟩, afterNode_fine (h _ rfl).2.1⟩
  · exact hp

theorem fine_fmtRefType {x : Option Spot} (h : ∀ s, x = some s → SpotFine s) (hp : p.fine) :
    (fmtRefType o x p).fine := by
  unfold fmtRefType
  split
  · exact ⟨fineL_append.mpr ⟨hp.1, fineL_one (fine_text _)⟩, afterToken_fine (h _ rfl).2.1⟩
  · exact hp

theorem fine_fmtInstrName {x : Option Spot} (h : ∀ s, x = some s → SpotFine s) (hp : p.fine) :
    (fmtInstrName o x p).fine := by
  unfold fmtInstrName
  split
  · exact ⟨fineL_append.mpr ⟨fineL_append.mpr hp, fineL_one (fine_text _)⟩, afterToken_fine (h _ rfl).2.1⟩
  · exact hp

theorem fine_fmtOperands {xs : List Spot} (h : ∀ s ∈ xs, SpotFine s) (hp : p.fine) : (fmtOperands o xs p).fine :=
  Pr.fine_foldl h (fun _ _ hs hp => Pr.fine_part hs (by split <;> simp [fineL, Doc.fine, Doc.space]) hp) hp

theorem fine_fmtIndexes {xs : List Spot} (h : ∀ s ∈ xs, SpotFine s) (hp : p.fine) : (fmtIndexes o xs p).fine :=
  Pr.fine_foldl h (fun _ _ hs hp => Pr.fine_part hs (by split <;> simp [fineL, Doc.fine, Doc.space]) hp) hp

theorem fine_fmtThen {x : Option Spot} (h : ∀ s, x = some s → SpotFine s) (hp : p.fine) : (fmtThen o x p).fine := by
  unfold fmtThen
  split
  · refine ⟨fineL_append.mpr ⟨fineL_append.mpr ⟨hp.1, ?_⟩, fineL_one (h _ rfl).1⟩, afterNode_fine (h _ rfl).2.1⟩
    split
    · simp [fineL, Doc.fine]
    · exact hp.2
  · exact hp

theorem fine_fmtFuncTypeUse {x : Option Spot} (h : ∀ s, x = some s → SpotFine s) (hp : p.fine) :
    (fmtFuncTypeUse o x p).fine := by
  unfold fmtFuncTypeUse
  split
  · exact Pr.fine_part (h _ rfl) (by split <;> simp [fineL, Doc.fine, Doc.space]) hp
  · exact hp

theorem fine_firstParts {sep : List Doc} {xs : List Spot} (h : ∀ s ∈ xs, SpotFine s) (hd : fineL sep)
    (hp : p.fine) : (p.firstParts o sep xs).fine := by
  unfold Pr.firstParts
  split
  · exact hp
  · exact Pr.fine_parts (fun t ht => h t (List.mem_cons_of_mem _ ht)) (fineL_one fine_space)
      (Pr.fine_part (h _ List.mem_cons_self) hd hp)

theorem fine_fmtUseParts {sep : Doc} {lp : Bool} {xs : List Spot} (h : ∀ s ∈ xs, SpotFine s) (hd : sep.fine)
    (hp : p.fine) : (fmtUseParts o sep lp xs p).fine := by
  unfold fmtUseParts
  split
  · exact hp
  · rename_i s rest
    refine Pr.fine_parts (fun t ht => h t (List.mem_cons_of_mem _ ht)) (fineL_one fine_space) ?_
    have hs := h s List.mem_cons_self
    refine ⟨fineL_append.mpr ⟨fineL_append.mpr ⟨hp.1, ?_⟩, fineL_one hs.1⟩, afterNode_fine hs.2.1⟩
    split
    · exact fineL_one hd
    · split
      · exact hp.2
      · trivial

theorem fine_reflow (t : Text) : fineL (reflow t) := by
  have : ∀ ls, fineL (reflowRest ls) := by
    intro ls
    induction ls with
    | nil => trivial
    | cons l ls ih => exact ⟨by simp [Doc.fine], fine_text _, ih⟩
  unfold reflow
  split
  · trivial
  · exact ⟨fine_text _, this _⟩

theorem fine_fmtFields {before : List Green} {xs : List Spot} (h : ∀ s ∈ xs, SpotFine s) (hp : p.fine) :
    (fmtFields o before xs p).fine := by
  refine Pr.fine_foldl h (fun p s hs hp => ?_) hp
  refine ⟨fineL_append.mpr ⟨fineL_append.mpr ⟨hp.1, fine_sepOr (by simp [fineL, Doc.fine]) hp.2⟩, ?_⟩,
    afterNode_fine hs.2.1⟩
  split
  · exact fine_reflow _
  · exact fineL_one hs.1

end steps

/-- The end keyword of a block. -/
theorem fine_end {o : FmtOpts} {x : Option Spot} {sep : Doc} {w : Text} {p : Pr} (h : ∀ s, x = some s → SpotFine s)
    (hd : sep.fine) (hp : p.fine) :
    (p.tokAs? o sep w x).fine := by
  unfold Pr.tokAs?
  split
  · exact Pr.fine_tokAs (h _ rfl) hd hp
  · exact hp

theorem Pr.fine_left {p : Pr} (h : p.fine) : fineL p.docs := h.1

theorem Pr.fine_both {p : Pr} (h : p.fine) : fineL (p.docs ++ p.triv) := fineL_append.mpr h

theorem fine_fmtNode {o : FmtOpts} {before : List Green} {k : Kind} {ss : List Spot} (h : ∀ s ∈ ss, SpotFine s) :
    (fmtNode o before k ss).fine := by
  have hf : ∀ {f : Spot → Bool} (s : Spot), ss.find? f = some s → SpotFine s := fun s hs => find_fine h hs
  have hl : ∀ {f : Spot → Bool}, ∀ s ∈ ss.filter f, SpotFine s := filter_fine h
  have h1 : ∀ {f : Spot → Bool} (s : Spot), (ss.filter f)[1]? = some s → SpotFine s := fun s hs =>
    hl s (List.mem_of_getElem? hs)
  have hh : (Doc.hardLine).fine := by simp [Doc.fine]
  have hso : ∀ n, (Doc.nest n .softLine).fine := by intro n; simp [Doc.fine]
  have n1 : ∀ {k : Kind} (s : Spot), nodeSpot k ss = some s → SpotFine s := fun s hs => hf s hs
  have n2 : ∀ {k : Kind} (s : Spot), tokSpot k ss = some s → SpotFine s := fun s hs => hf s hs
  have n3 : ∀ {k : Kind}, ∀ s ∈ nodeSpots k ss, SpotFine s := hl
  have n4 : ∀ {k : Kind}, ∀ s ∈ tokSpots k ss, SpotFine s := hl
  have n5 : ∀ s ∈ instrSpots ss, SpotFine s := hl
  have n6 : ∀ {k : Kind} (s : Spot), (tokSpots k ss)[1]? = some s → SpotFine s := h1
  have n7 : ∀ {w : Text} (s : Spot), wordSpot w ss = some s → SpotFine s := fun s hs => hf s hs
  have hs1 : (Doc.softLine).fine := by simp [Doc.fine]
  cases k <;> simp only [fmtNode]
  case GLOBAL_TYPE =>
    unfold fmtGlobalType
    split
    · exact Pr.fine_close (Pr.fine_part? hf (fineL_one fine_space) (Pr.fine_kw h (Pr.fine_lparen h Pr.fine_init)))
    · split
      · rename_i s hs; exact (hf s hs).1
      · trivial
  case MEMORY_TYPE =>
    unfold fmtMemoryType
    split
    · rename_i s hs; exact (hf s hs).1
    · trivial
  case BLOCK_TYPE =>
    unfold fmtBlockType
    split
    · rename_i s hs; exact (hf s hs).1
    · split
      · rename_i s hs; exact (hf s hs).1
      · trivial
  case OPERAND =>
    unfold fmtOperand
    split
    · rename_i s hs; exact (hl s (List.mem_of_mem_head? hs)).1
    · split
      · rename_i s hs; exact (hf s hs).1
      · split
        · exact fine_text _
        · trivial
  case BLOCK_IF =>
    unfold fmtBlockIf
    simp only
    have hp : (Pr.part? o [.space] (nodeSpot .BLOCK_TYPE ss) (Pr.tok? o .space (tokSpot .IDENT ss)
        (Pr.kw o ss t!"if" (Pr.lparen o ss Pr.init)))).fine :=
      Pr.fine_part? hf (fineL_one fine_space) (Pr.fine_tok? hf fine_space (Pr.fine_kw h (Pr.fine_lparen h Pr.fine_init)))
    refine fine_list (Pr.fine_tok? h1 fine_space (fine_end hf hh (Pr.fine_rparen? h ?_))).1
    have hq := Pr.fine_part? (o := o) (sep := [.hardLine]) (x := nodeSpot .BLOCK_IF_ELSE ss) hf (fineL_one hh)
      (fine_fmtThen (o := o) (x := nodeSpot .BLOCK_IF_THEN ss) hf
        (Pr.fine_parts (o := o) (sep := [.hardLine]) (xs := instrSpots ss)
          (p := ⟨[], (Pr.part? o [.space] (nodeSpot .BLOCK_TYPE ss) (Pr.tok? o .space (tokSpot .IDENT ss)
        (Pr.kw o ss t!"if" (Pr.lparen o ss Pr.init)))).triv⟩) hl (fineL_one hh) ⟨trivial, hp.2⟩))
    refine ⟨fineL_append.mpr ⟨hp.1, ?_⟩, hq.2⟩
    split
    · exact fineL_one (fine_nest (fine_list hq.1))
    · exact hq.1
  case MODULE =>
    unfold fmtModule
    simp only
    have hp : (Pr.tok? o .space (tokSpot .IDENT ss) (Pr.kw o ss t!"module" (Pr.lparen o ss Pr.init))).fine :=
      Pr.fine_tok? hf fine_space (Pr.fine_kw h (Pr.fine_lparen h Pr.fine_init))
    have hq := fine_fmtFields (o := o) (before := before) (xs := ss.filter fun s => s.g.isField)
      (p := ⟨[], (Pr.tok? o .space (tokSpot .IDENT ss) (Pr.kw o ss t!"module" (Pr.lparen o ss Pr.init))).triv⟩)
      hl ⟨trivial, hp.2⟩
    exact Pr.fine_close ⟨fineL_append.mpr ⟨hp.1, fineL_one (fine_nest (fine_list hq.1))⟩, hq.2⟩
  case ROOT =>
    unfold fmtRoot
    refine fine_list (fineL_append.mpr ⟨fineL_flatMap fun s hs => ?_, fineL_one hh⟩)
    obtain ⟨hd, _, ht⟩ := h s hs
    unfold fmtRootItem
    split
    · split
      · exact fine_reflow _
      · split
        · exact fineL_one hd
        · trivial
    · rename_i t hg
      rw [hg] at ht
      obtain ⟨r, hr, _⟩ := C33_line o t (ht (.LINE_COMMENT, t) (by simp [Green.toks]))
      exact fineL_one (by rw [hr]; exact fine_text _)
    · rename_i t hg
      rw [hg] at ht
      obtain ⟨r, hr, _⟩ := C33_block o t (ht (.BLOCK_COMMENT, t) (by simp [Green.toks]))
      exact fineL_one (by rw [hr]; exact fine_text _)
    · split
      · split
        · split
          · exact fineL_one hh
          · exact fineL_one fine_space
        · exact fineL_one hh
        · exact ⟨by simp [Doc.fine], hh, trivial⟩
      · trivial
    · exact fineL_one (fine_text _)
  all_goals try exact trivial
  all_goals try exact fine_text _
  all_goals
    simp only [fmtFuncType, fmtParam, fmtResult, fmtLimits, fmtTableType, fmtBlockLike, fmtBranch, fmtPlainInstr,
      fmtData, fmtElem, fmtExpr, fmtElemList, fmtExport, fmtExportDesc, fmtImport, fmtNamed, fmtLocal, fmtUse,
      fmtFieldData, fmtFieldElem, fmtFieldExport, fmtFieldFunc, fmtFieldGlobal, fmtFieldImport, fmtFieldMemory,
      fmtFieldTable, fmtTypeUse]
  all_goals
    repeat' first
    | with_reducible exact Pr.fine_init
    | with_reducible exact h
    | with_reducible exact n1
    | with_reducible exact n2
    | with_reducible exact n3
    | with_reducible exact n4
    | with_reducible exact n5
    | with_reducible exact n6
    | with_reducible exact n7
    | with_reducible exact hf
    | with_reducible exact hh
    | with_reducible exact hso _
    | with_reducible exact hs1
    | with_reducible exact fine_space
    | with_reducible exact fineL_one fine_space
    | with_reducible exact fineL_one (hso _)
    | with_reducible exact fineL_one hh
    | with_reducible apply Pr.fine_close
    | with_reducible apply fine_nest
    | with_reducible apply fine_list
    | with_reducible apply Pr.fine_lparen
    | with_reducible apply Pr.fine_kw
    | with_reducible apply Pr.fine_parts
    | with_reducible apply Pr.fine_part?
    | with_reducible apply Pr.fine_tok?
    | with_reducible apply Pr.fine_toks
    | with_reducible apply Pr.fine_nested
    | with_reducible apply Pr.fine_rparen?
    | with_reducible apply Pr.fine_own?
    | with_reducible apply Pr.fine_owns
    | with_reducible apply fine_fmtMin
    | with_reducible apply fine_fmtHead
    | with_reducible apply fine_fmtRefType
    | with_reducible apply fine_fmtInstrName
    | with_reducible apply fine_fmtOperands
    | with_reducible apply fine_fmtIndexes
    | with_reducible apply fine_fmtFuncTypeUse
    | with_reducible apply fine_firstParts
    | with_reducible apply fine_fmtUseParts
    | with_reducible apply fine_end
    | with_reducible apply Pr.fine_left
    | with_reducible apply Pr.fine_both

theorem toksL_mem {gs : List Green} {g : Green} (hg : g ∈ gs) {kt : Kind × Text} (hk : kt ∈ g.toks) :
    kt ∈ Green.toksL gs := by
  induction gs with
  | nil => cases hg
  | cons x xs ih =>
    rw [Green.toksL]
    rcases List.mem_cons.mp hg with rfl | hg
    · exact List.mem_append_left _ hk
    · exact List.mem_append_right _ (ih hg)

mutual
theorem fine_fmtDoc (o : FmtOpts) (before : List Green) (g : Green) (h : ∀ kt ∈ g.toks, TokenShape kt.1 kt.2) :
    (fmtDoc o before g).fine := by
  cases g with
  | tok k t => rw [fmtDoc]; exact fine_text _
  | node k cs =>
    rw [fmtDoc]
    exact fine_fmtNode (fine_fmtKids o [] cs (by rw [Green.toks] at h; exact h))
theorem fine_fmtKids (o : FmtOpts) (before : List Green) (gs : List Green)
    (h : ∀ kt ∈ Green.toksL gs, TokenShape kt.1 kt.2) : ∀ s ∈ fmtKids o before gs, SpotFine s := by
  cases gs with
  | nil => intro s hs; simp [fmtKids] at hs
  | cons g gs =>
    rw [Green.toksL] at h
    have hg : ∀ kt ∈ g.toks, TokenShape kt.1 kt.2 := fun kt hk => h kt (List.mem_append_left _ hk)
    have hgs : ∀ kt ∈ Green.toksL gs, TokenShape kt.1 kt.2 := fun kt hk => h kt (List.mem_append_right _ hk)
    intro s hs
    rw [fmtKids] at hs
    rcases List.mem_cons.mp hs with rfl | hs
    · exact ⟨fine_fmtDoc o before g hg, fun x hx kt hk => hgs kt (toksL_mem hx hk), hg⟩
    · exact fine_fmtKids o _ gs hgs s hs
end

end Verif
