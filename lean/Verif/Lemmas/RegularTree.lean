import Verif.Lemmas.RegularModule
import Verif.Lemmas.Reparse
import Verif.Lemmas.Apart
import Verif.Props.C06
/-!
Helper lemmas: the tree of a document without errors is a program if its tokens are those of programs.
-/
namespace Verif.Reg
open P Spec

/-! ### Neighbours in productions -/

/-- The terms that may come first. -/
def firsts : List Item → List Term
  | [] => []
  | .one ts :: _ => ts
  | .opt ts :: p | .many ts :: p => ts ++ firsts p

/-- The pairs of terms that may come one after the other. -/
def pairs : List Item → List (Term × Term)
  | [] => []
  | .one ts :: p | .opt ts :: p => (ts.flatMap fun t => (firsts p).map (t, ·)) ++ pairs p
  | .many ts :: p => (ts.flatMap fun t => (ts ++ firsts p).map (t, ·)) ++ pairs p

theorem firsts_sound {p : List Item} {l : List Green} (h : Match p l) : ∀ y r, l = y :: r → ∃ u ∈ firsts p, u.is y := by
  induction h with
  | nil => intro y r h; cases h
  | one ht hg _ _ => intro y r h; cases h; exact ⟨_, ht, hg⟩
  | opt ht hg _ _ => intro y r h; cases h; exact ⟨_, List.mem_append_left _ ht, hg⟩
  | more ht hg _ _ => intro y r h; cases h; exact ⟨_, List.mem_append_left _ ht, hg⟩
  | skip _ ih | stop _ ih =>
    intro y r h
    obtain ⟨u, h1, h2⟩ := ih y r h
    exact ⟨u, List.mem_append_right _ h1, h2⟩

theorem pairs_sound {p : List Item} {l : List Green} (h : Match p l) :
    ∀ a x y b, l = a ++ x :: y :: b → ∃ t u, (t, u) ∈ pairs p ∧ t.is x ∧ u.is y := by
  have key : ∀ {ts : List Term} {t : Term} {us : List Term} {u : Term}, t ∈ ts → u ∈ us → (t, u) ∈ ts.flatMap fun t => us.map (t, ·) :=
    fun ht hu => List.mem_flatMap.mpr ⟨_, ht, List.mem_map.mpr ⟨_, hu, rfl⟩⟩
  induction h with
  | nil => intro a x y b h; cases a <;> cases h
  | one ht hg hm ih | opt ht hg hm ih =>
    intro a x y b h
    cases a with
    | nil =>
      cases h
      obtain ⟨u, h1, h2⟩ := firsts_sound hm y b rfl
      exact ⟨_, u, List.mem_append_left _ (key ht h1), hg, h2⟩
    | cons z a =>
      cases h
      obtain ⟨t, u, h1, h2⟩ := ih a x y b rfl
      exact ⟨t, u, List.mem_append_right _ h1, h2⟩
  | more ht hg hm ih =>
    intro a x y b h
    cases a with
    | nil =>
      cases h
      obtain ⟨u, h1, h2⟩ := firsts_sound hm y b rfl
      exact ⟨_, u, List.mem_append_left _ (key ht h1), hg, h2⟩
    | cons z a =>
      cases h
      exact ih a x y b rfl
  | skip _ ih | stop _ ih =>
    intro a x y b h
    obtain ⟨t, u, h1, h2⟩ := ih a x y b h
    exact ⟨t, u, List.mem_append_right _ h1, h2⟩

/-- Terms that do not begin with an identifier. -/
def safeTerms : List Term :=
  [.tok .R_PAREN, .tok .STRING, .node .PLAIN_INSTR, .node .BLOCK_BLOCK, .node .BLOCK_LOOP, .node .BLOCK_IF, .node .BLOCK_IF_THEN]

/-- The term does not begin with an identifier. -/
def safeTerm (u : Term) : Bool :=
  safeTerms.contains u || match u with | .word _ => true | _ => false

/-- What may follow a block that has no label is no identifier, by the productions. -/
def pairsOk (k : Kind) : Bool :=
  (productions k).all fun p => (pairs p).all fun tu => ![Kind.BLOCK_BLOCK, .BLOCK_LOOP, .OPERAND, .OFFSET].contains (termKind tu.1) || safeTerm tu.2

theorem pairsOk_all (k : Kind) (h1 : k ≠ .PLAIN_INSTR) (h2 : k ≠ .MODULE_FIELD_ELEM) : pairsOk k = true := by
  cases k <;> first | exact absurd rfl h1 | exact absurd rfl h2 | decide +kernel

/-- The productions of instructions begin with tokens other than identifiers. -/
def opensOk (k : Kind) : Bool :=
  (productions k).all fun p => match p with
    | .one ts :: _ => ts.all fun t => match t with | .tok k => k != .IDENT | .word _ => true | .node _ => false
    | _ => false

/-- An instruction has a first token, which is no identifier. -/
theorem instr_head {g : Green} (h : WellFormed g) (hk : g.kind ∈ instructionKinds) : ∃ k t r, g.toks = (k, t) :: r ∧ k ≠ .IDENT := by
  cases h with
  | tok h1 _ =>
    exfalso
    simp only [Green.kind, instructionKinds, List.mem_cons, List.not_mem_nil, or_false] at hk
    rcases hk with rfl | rfl | rfl | rfl <;> exact h1
  | @node k cs p hp hm _ _ =>
    have ho : opensOk k = true := by
      simp only [Green.kind, instructionKinds, List.mem_cons, List.not_mem_nil, or_false] at hk
      rcases hk with rfl | rfl | rfl | rfl <;> decide +kernel
    have := List.all_eq_true.mp ho p hp
    cases hm with
    | nil | skip _ | opt _ _ _ | stop _ | more _ _ _ => simp at this
    | @one ts t g is l ht hg _ =>
      simp only at this
      have := List.all_eq_true.mp this _ ht
      cases t with
      | node _ => cases this
      | word w =>
        cases g with
        | node _ _ => exact hg.elim
        | tok k' t' => exact ⟨k', t', _, rfl, by rw [hg.1]; decide⟩
      | tok k0 =>
        cases g with
        | node _ _ => exact hg.elim
        | tok k' t' =>
          have e : k' = k0 := hg
          subst e
          exact ⟨k', t', _, rfl, by simpa using this⟩

theorem safe_head {u : Term} {y : Green} (hu : safeTerm u = true) (hy : u.is y) (hw : WellFormed y) : ¬ HeadId y := by
  have hi : y.kind ∈ instructionKinds → ¬ HeadId y := fun hk ⟨t, r, h⟩ => by
    obtain ⟨k, t', r', h1, h2⟩ := instr_head hw hk
    rw [h] at h1
    cases h1
    exact h2 rfl
  have hkind := is_kind hy
  cases u with
  | word w =>
    cases y with
    | node _ _ => exact hy.elim
    | tok k t => rw [headId_tok, hy.1]; decide
  | tok k =>
    cases y with
    | node _ _ => exact hy.elim
    | tok k' t =>
      have e : k' = k := hy
      subst e
      rw [headId_tok]
      rintro rfl
      revert hu; decide
  | node k =>
    by_cases hk : k ∈ instructionKinds
    · exact hi (by rw [hkind]; exact hk)
    · have : k = .BLOCK_IF_THEN := by
        simp only [safeTerm, safeTerms, List.contains_cons, List.contains_nil, Bool.or_false, Bool.or_eq_true, beq_iff_eq] at hu
        simp only [instructionKinds, List.mem_cons, List.not_mem_nil, or_false, not_or] at hk
        obtain ⟨a, b, c, d⟩ := hk
        simp_all
      subst this
      rintro ⟨t, r, h⟩
      cases hw with
      | tok _ _ => exact hy
      | node hp hm _ hc =>
        have e : _ = Kind.BLOCK_IF_THEN := hy
        subst e
        simp only [productions, List.mem_cons, List.not_mem_nil, or_false] at hp
        rcases hp with rfl | rfl
        · rename_i cs _
          cases cs with
          | nil => simp [Green.toks, Green.toksL] at h
          | cons z l =>
            obtain ⟨t', ht, his⟩ := match_many_is hm z (.head _)
            have hzk : z.kind ∈ instructionKinds := by
              rw [is_kind his]
              simp only [instrTerms, List.mem_cons, List.not_mem_nil, or_false] at ht
              rcases ht with rfl | rfl | rfl | rfl <;> decide
            obtain ⟨k, t'', r', h1, h2⟩ := instr_head (hc z (.head _)) hzk
            simp only [Green.toks, Green.toksL, h1, List.cons_append] at h
            cases h
            exact h2 rfl
        · obtain ⟨g, l, rfl, ht, _⟩ := match_cons_one hm
          simp only [List.mem_singleton] at ht
          obtain ⟨t0, rfl, hg⟩ := ht
          cases g with
          | node _ _ => exact hg.elim
          | tok k' t' =>
            have e : k' = .L_PAREN := hg
            subst e
            simp only [Green.toks, Green.toksL] at h
            cases h

theorem adj_of_match {k : Kind} {p : List Item} {l : List Green} (h1 : k ≠ .PLAIN_INSTR) (h2 : k ≠ .MODULE_FIELD_ELEM)
    (hp : p ∈ productions k) (hm : Match p l) (hw : ∀ c ∈ l, WellFormed c) : Adj l := by
  rintro a x y b rfl hu
  obtain ⟨t, u, h3, h4, h5⟩ := pairs_sound hm a x y b rfl
  have := List.all_eq_true.mp (List.all_eq_true.mp (pairsOk_all k h1 h2) p hp) _ h3
  simp only [Bool.or_eq_true, Bool.not_eq_true'] at this
  rcases this with h | h
  · exfalso
    have hk := unlabelled_kind hu
    rw [is_kind h4] at hk
    have : termKind t ∈ [Kind.BLOCK_BLOCK, .BLOCK_LOOP, .OPERAND, .OFFSET] := by simpa using hk
    rw [List.contains_iff_mem.mpr this] at h
    cases h
  · exact safe_head h h5 (hw y (by simp))

/-! ### First tokens -/

mutual
theorem wf_toks : ∀ {g : Green}, WellFormed g → ∀ kt ∈ g.toks, TokenShape kt.1 kt.2 ∧ TokenFine kt.1 kt.2
  | .tok k t, h, kt, hm => by
    simp only [Green.toks, List.mem_singleton] at hm
    subst hm
    cases h with | tok h1 h2 => exact ⟨h1, h2⟩
  | .node k cs, h, kt, hm => by
    rw [Green.toks] at hm
    cases h with | node _ _ _ hc => exact wf_toksL hc kt hm
theorem wf_toksL : ∀ {l : List Green}, (∀ g ∈ l, WellFormed g) → ∀ kt ∈ Green.toksL l, TokenShape kt.1 kt.2 ∧ TokenFine kt.1 kt.2
  | [], _, kt, hm => by simp [Green.toksL] at hm
  | g :: l, h, kt, hm => by
    rw [Green.toksL, List.mem_append] at hm
    rcases hm with hm | hm
    · exact wf_toks (h g (.head _)) kt hm
    · exact wf_toksL (fun x hx => h x (.tail _ hx)) kt hm
end

theorem dollar_unsigned {t : Text} : ¬ IsUnsigned ('$' :: t) := by
  rintro (⟨c, r, h, h1, _⟩ | ⟨r, h, _⟩)
  · cases h; revert h1; decide
  · cases h

theorem dollar_ident {k : Kind} {t : Text} (h : TokenShape k ('$' :: t)) (h2 : TokenFine k ('$' :: t)) : k = .IDENT := by
  cases k <;> simp only [TokenShape, TokenFine] at h h2 <;> first | rfl | trivial | skip
  case L_PAREN | R_PAREN | VEC_TYPE => cases h
  case KEYWORD => exfalso; simp [keywords] at h
  case INSTR_NAME => obtain ⟨c, r, h, h3, _⟩ := h; cases h; revert h3; decide
  case STRING => obtain ⟨b, _, h | h⟩ := h <;> cases h
  case INT =>
    rcases h with h | ⟨r, h | h, _⟩
    · exact absurd h dollar_unsigned
    · cases h
    · cases h
  case UNSIGNED_INT => exact absurd h dollar_unsigned
  case FLOAT =>
    obtain ⟨⟨⟨g, m, h, hg, hm⟩, _⟩, _⟩ := h
    have : ∀ ds e : List Char, '$' ∉ ds → ¬ IsFloatNum ds e ('$' :: t) := by
      rintro ds e hd ⟨i, f, x, h, ⟨c, r, rfl, hc, _⟩, _⟩
      cases h; exact hd hc
    rcases hg with rfl | rfl | rfl
    · rw [List.nil_append] at h
      subst h
      rcases hm with h | h | ⟨r, h, _⟩ | h | ⟨r, h, _⟩
      · cases h
      · cases h
      · cases h
      · exact absurd h (this _ _ (by decide))
      · cases h
    · cases h
    · cases h
  case MEM_ARG => obtain ⟨r, h | h, _⟩ := h <;> cases h

theorem starts_headId {y : Green} (hw : WellFormed y) (h : StartsWithIdent y) : HeadId y := by
  obtain ⟨t, r, h⟩ := h
  have hf := wf_toks hw
  have hall : y.toks.filter (fun kt => !triviaKinds.contains kt.1) = y.toks := List.filter_eq_self.mpr fun kt hm => by
    have := (hf kt hm).2
    rcases kt with ⟨k, t⟩
    cases k <;> simp only [TokenFine] at this <;> first | exact this.elim | rfl
  unfold lexemes at h
  rw [hall] at h
  cases hy : y.toks with
  | nil => rw [hy] at h; cases h
  | cons kt l =>
    rw [hy] at h
    rcases kt with ⟨k, t'⟩
    simp only [List.map_cons, List.cons.injEq] at h
    obtain ⟨rfl, _⟩ := h
    obtain ⟨h1, h2⟩ := hf (k, '$' :: t) (by rw [hy]; exact .head _)
    have := dollar_ident h1 h2
    subst this
    exact ⟨_, _, hy⟩

/-! ### Trees -/

theorem is_strip {t : Term} {g : Green} (h : t.is g) : t.is (strip g) := by cases g <;> cases t <;> exact h

theorem match_map {p : List Item} {l : List Green} (h : Match p l) : Match p (l.map strip) := by
  induction h with
  | nil => exact .nil
  | one ht hg _ ih => exact .one ht (is_strip hg) ih
  | skip _ ih => exact .skip ih
  | opt ht hg _ ih => exact .opt ht (is_strip hg) ih
  | stop _ ih => exact .stop ih
  | more ht hg _ ih => exact .more ht (is_strip hg) ih

theorem regular_of {k : Kind} {cs : List Green} {p : List Item} (hl : Loc k cs) (hp : p ∈ productions k) (hm : Match p (stripL cs))
    (hw : ∀ c ∈ stripL cs, WellFormed c) : Regular k (stripL cs) := by
  have adj : Adj (stripL cs) → ∀ a x y b, stripL cs = a ++ x :: y :: b → Unlabelled x → ¬ StartsWithIdent y :=
    fun h a x y b e hu hs => h a x y b e hu (starts_headId (hw y (by rw [e]; simp)) hs)
  by_cases h1 : k = .PLAIN_INSTR
  · subst h1; exact ⟨hl.1, adj hl.2⟩
  by_cases h2 : k = .MODULE_FIELD_ELEM
  · subst h2
    exact ⟨fun a b c r e hs => hl.1 a b c r e (starts_headId (hw _ (by rw [e]; simp)) hs), adj hl.2⟩
  refine ⟨?_, adj (adj_of_match h1 h2 hp hm hw)⟩
  split <;> first | exact hl | exact absurd rfl h1 | exact absurd rfl h2 | trivial

/-- What is required of a token of a program beyond its shape. -/
def Lexical (kt : Kind × Text) : Prop :=
  kt.1 ≠ .ERROR ∧ (kt.1 = .STRING → ClosedString kt.2) ∧ (kt.1 = .INSTR_NAME → InstrWord kt.2)

mutual
theorem wf_strip : ∀ {g : Green}, isBlank g = false → Derived g → RegT g → (∀ kt ∈ g.toks, TokenShape kt.1 kt.2 ∧ Lexical kt) → WellFormed (strip g)
  | .tok k t, hb, _, hr, ht => by
    obtain ⟨h1, h2, h3, h4⟩ := ht (k, t) (.head _)
    rw [strip_tok]
    refine .tok h1 ?_
    cases k <;> first | trivial | exact h3 rfl | exact h4 rfl | exact hr rfl | exact absurd rfl h2 | cases hb
  | .node k cs, _, hd, hr, ht => by
    rw [Derived] at hd
    obtain ⟨⟨p, hp, hm⟩, _, hd⟩ := hd
    have hw := wf_stripL hd hr.2 ht
    rw [strip_node]
    have hm' : Match p (stripL cs) := by rw [stripL_signif]; exact match_map hm
    exact .node hp hm' (regular_of hr.1 hp hm' hw) hw
theorem wf_stripL : ∀ {l : List Green}, DerivedL l → RegL l → (∀ kt ∈ Green.toksL l, TokenShape kt.1 kt.2 ∧ Lexical kt) → ∀ c ∈ stripL l, WellFormed c
  | [], _, _, _, c, hc => by simp [stripL] at hc
  | g :: l, hd, hr, ht, c, hc => by
    rw [Green.toksL] at ht
    have ih := wf_stripL hd.2 hr.2 fun kt h => ht kt (List.mem_append_right _ h)
    rw [stripL] at hc
    split at hc
    · exact ih c hc
    · rename_i hb
      rcases List.mem_cons.mp hc with rfl | hc
      · exact wf_strip (by simpa using hb) hd.1 hr.1 fun kt h => ht kt (List.mem_append_left _ h)
      · exact ih c hc
end

theorem toksL_mem {g : Green} {kt : Kind × Text} : ∀ {l : List Green}, g ∈ l → kt ∈ g.toks → kt ∈ Green.toksL l
  | x :: l, hg, hk => by
    rw [Green.toksL]
    rcases List.mem_cons.mp hg with rfl | hg
    · exact List.mem_append_left _ hk
    · exact List.mem_append_right _ (toksL_mem hg hk)

theorem parse_reg {dbg : Bool} {src : Text} {g : Green} {d : Text} (h : parse dbg src = .tree g [] d) :
    ∃ a b, g = .node .ROOT (a ++ b) ∧ Yield [[.many [.node .MODULE]]] a ∧ RegL a ∧ ∀ g ∈ b, IsRest g := by
  have hm : Snd false (many dbg (retryOnce dbg (moduleP dbg) [])) [[.many [.node .MODULE]]] := by snd [snd_moduleP]
  have hg : Rg dbg false (many dbg (retryOnce dbg (moduleP dbg) [])) := rg_many (rg_retryOnce rg_moduleP.weak)
  unfold parse at h
  cases hr : rootChildren dbg (St.init src) <;> simp only [hr] at h <;> try cases h
  rename_i cs s2
  obtain ⟨a, s1, c, h1, h2, rfl⟩ := seq_cons_ok hr
  rw [seq_one] at h2
  have hl := lex_many (lex_rootTail (dbg := dbg) (n := s1.rest.length)) s1 (Nat.le_refl _)
  simp only [h2, LexOut] at hl
  obtain ⟨t, ha, ht⟩ := hl
  split at h
  · rename_i hd
    simp only [ParseOut.tree.injEq] at h
    obtain ⟨rfl, he, rfl⟩ := h
    have e1 : s1.errs = [] := by rw [← ha.errs]; exact he
    obtain ⟨l, h3, rfl⟩ := map_ok h2
    exact ⟨a, _, rfl, (hm.ok h1 e1).2.1, hg.ok h1 e1 (fun h => by cases h), (rootTail_lines _ _ _ _ h3 (by simpa using hd)).2.1⟩
  · have := congrArg (fun o => match o with | ParseOut.tree _ e _ => e | _ => []) h
    exact absurd this (by simp [St.record])

/-- A document parsed without errors whose tokens are as a program's is a program. -/
theorem program_of {dbg : Bool} {src : Text} {g : Green} {d : Text} (h : parse dbg src = .tree g [] d) (ht : ∀ kt ∈ g.toks, Lexical kt) :
    Program (strip g) := by
  have hshape := C06_token_shapes dbg src g [] d h
  obtain ⟨a, b, rfl, hy, hr, hb⟩ := parse_reg h
  rw [Green.toks] at ht hshape
  obtain ⟨p, hp, hm⟩ := hy.prod
  simp only [List.mem_singleton] at hp
  subst hp
  have hs : stripL b = [] := by
    refine stripL_blank fun g hg => ?_
    rcases hb g hg with h | ⟨t, rfl⟩
    · exact h
    · exact absurd rfl (ht (.ERROR, t) (toksL_mem (List.mem_append_right a hg) (.head _))).1
  rw [strip_node, stripL_append, hs, List.append_nil]
  have hw : ∀ c ∈ stripL a, WellFormed c := wf_stripL hy.good hr fun kt hk => by
    have hk' : kt ∈ Green.toksL (a ++ b) := by rw [toksL_append]; exact List.mem_append_left _ hk
    exact ⟨hshape kt hk', ht kt hk'⟩
  have hm' : Match [.many [.node .MODULE]] (stripL a) := by rw [stripL_signif]; exact match_map hm
  exact ⟨rfl, .node (.head _) hm' (regular_of (loc_plain rfl) (.head _) hm' hw) hw⟩

/-- The tokens of a program. -/
theorem lexical_of {cs : List Green} (hp : Program (strip (.node .ROOT cs))) : ∀ kt ∈ (Green.node .ROOT cs).toks, Lexical kt := by
  intro kt hk
  rcases fine_toks hp.2 (fun k t => .inl (fun h => by cases h)) kt hk with h | h
  · refine ⟨?_, ?_, ?_⟩ <;> revert h <;> cases kt.1 <;> simp [triviaKinds]
  · refine ⟨?_, ?_, ?_⟩
    · rintro he; rw [he] at h; exact h
    · rintro he; rw [he] at h; exact h
    · rintro he; rw [he] at h; exact h

end Verif.Reg
