import Verif.Model.Check
import Verif.Lemmas.Outline
import Verif.Lemmas.Rename
/-!
Facts about the checkers: which checker a message comes from, and when collecting diagnostics does not panic.
-/
namespace Verif
open Spec

/-- The checker a message belongs to. -/
inductive Checker where
  | syn | modules | undef | dup | literal | typing
  deriving DecidableEq

/-- The checker of each message. -/
def DiagMsg.checker : DiagMsg → Checker
  | .syn _ => .syn
  | .onlyOneModule => .modules
  | .cannotFind _ => .undef
  | .duplicated _ => .dup
  | .expectedIndex | .expectedInt | .expectedFloat | .expectedMemArg => .literal
  | .expectedInstr | .operandCount _ _ | .typeMismatch _ _ => .typing

theorem flatten_mem {f : α → Ans (List β)} {l : List α} {bs : List (List β)} (h : Ans.mapL f l = .done bs) (b : β) :
    b ∈ bs.flatten ↔ ∃ a ∈ l, ∃ c, f a = .done c ∧ b ∈ c := by
  simp only [List.mem_flatten]
  constructor
  · rintro ⟨c, hc, hb⟩
    obtain ⟨a, ha, hf⟩ := (mapL_mem h c).mp hc
    exact ⟨a, ha, c, hf, hb⟩
  · rintro ⟨a, ha, c, hf, hb⟩
    exact ⟨c, (mapL_mem h c).mpr ⟨a, ha, hf⟩, hb⟩

theorem checkModules_msg {root : Red} {d : RawDiag} (h : d ∈ checkModules root) : d.msg.checker = .modules := by
  obtain ⟨m, _, rfl⟩ := List.mem_map.mp h
  rfl

theorem checkUndef_msg {t : SymbolTable} {d : RawDiag} (h : d ∈ checkUndef t) : d.msg.checker = .undef := by
  obtain ⟨m, _, rfl⟩ := List.mem_map.mp h
  rfl

theorem checkLiterals_msg {n : Red} {d : RawDiag} (h : d ∈ checkLiterals n) : d.msg.checker = .literal := by
  unfold checkLiterals at h
  split at h
  · cases h
  · rw [List.mem_flatten] at h
    obtain ⟨l, hl, hd⟩ := h
    obtain ⟨p, _, rfl⟩ := List.mem_map.mp hl
    unfold checkLiteral at hd
    split at hd
    · cases hd
    · split at hd
      · cases hd
      · rw [List.mem_singleton] at hd
        subst hd
        cases p.1 <;> rfl

theorem mismatches_msg {ps : List Expected} {rs : List (OpType × Red)} {d : RawDiag} (h : d ∈ mismatches ps rs) :
    d.msg.checker = .typing := by
  unfold mismatches at h
  obtain ⟨p, _, hp⟩ := List.mem_filterMap.mp h
  split at hp
  · split at hp
    · cases hp
    · cases hp; rfl
  · cases hp

theorem operandTypes_msg {t : SymbolTable} {root : Red} {known : Bool} {o : Red} {r : List (OpType × Red) × List RawDiag}
    (h : operandTypes t root known o = .done r) {d : RawDiag} (hd : d ∈ r.2) : d.msg.checker = .typing := by
  unfold operandTypes at h
  split at h
  · obtain ⟨x, _, h⟩ := bind_done h
    split at h <;> cases h <;> cases hd
  · cases h
    dsimp only at hd
    split at hd
    · rw [List.mem_singleton] at hd; subst hd; rfl
    · cases hd

theorem checkFolded_msg {t : SymbolTable} {root n : Red} {ds : List RawDiag} (h : checkFolded t root n = .done ds)
    {d : RawDiag} (hd : d ∈ ds) : d.msg.checker = .typing := by
  unfold checkFolded at h
  split at h
  · cases h; cases hd
  · split at h
    · cases h; cases hd
    · obtain ⟨ops, ho, h⟩ := bind_done h
      obtain ⟨ps, hp, h⟩ := bind_done h
      have hops : d ∈ ops.flatMap (·.2) → d.msg.checker = .typing := by
        intro hm
        obtain ⟨r, hr, hdr⟩ := List.mem_flatMap.mp hm
        obtain ⟨o, _, hf⟩ := (mapL_mem ho r).mp hr
        exact operandTypes_msg hf hdr
      split at h
      · cases h; exact hops hd
      · cases h
        rcases List.mem_append.mp hd with hd | hd
        · exact hops hd
        · simp only [checkReceived] at hd
          rcases List.mem_append.mp hd with hd | hd
          · split at hd
            · rw [List.mem_singleton] at hd; subst hd; rfl
            · cases hd
          · exact mismatches_msg hd

theorem stackStep_msg {t : SymbolTable} {root n : Red} {st : List (OpType × Red)} {r : List (OpType × Red) × List RawDiag}
    (h : stackStep t root n st = .done r) {d : RawDiag} (hd : d ∈ r.2) : d.msg.checker = .typing := by
  unfold stackStep at h
  obtain ⟨ps, _, h⟩ := bind_done h
  split at h
  · cases h; cases hd
  · obtain ⟨tys, _, h⟩ := bind_done h
    cases h
    dsimp only at hd
    generalize (if (n.token .L_PAREN).isSome = true then 0 else _ : Nat) = k at hd
    rcases List.mem_append.mp hd with hd | hd
    · split at hd
      · rw [List.mem_singleton] at hd; subst hd; rfl
      · cases hd
    · exact mismatches_msg hd

theorem stackRun_msg {t : SymbolTable} {root : Red} : ∀ {ns : List Red} {st : List (OpType × Red)} {ds : List RawDiag},
    stackRun t root ns st = .done ds → ∀ d ∈ ds, d.msg.checker = .typing
  | [], _, ds, h, d, hd => by simp only [stackRun] at h; cases h; cases hd
  | n :: ns, st, ds, h, d, hd => by
    simp only [stackRun] at h
    split at h
    · obtain ⟨r, hr, h⟩ := bind_done h
      obtain ⟨ds', hrest, h⟩ := bind_done h
      cases h
      rcases List.mem_append.mp hd with hd | hd
      · exact stackStep_msg hr hd
      · exact stackRun_msg hrest d hd
    · exact stackRun_msg h d hd

theorem checkStacked_msg {t : SymbolTable} {root n : Red} {ds : List RawDiag} (h : checkStacked t root n = .done ds)
    {d : RawDiag} (hd : d ∈ ds) : d.msg.checker = .typing := by
  simp only [checkStacked] at h
  split at h
  · cases h; cases hd
  · exact stackRun_msg h d hd

theorem dupDiag_msg {root : Red} {s : Sym} {name : Text} {l : List Sym} {d : RawDiag} (h : dupDiag root s name l = .done d) :
    d.msg = .duplicated name := by
  unfold dupDiag at h
  obtain ⟨r, _, h⟩ := bind_done h
  obtain ⟨rs, _, h⟩ := bind_done h
  cases h; rfl

theorem checkDup_elim {t : SymbolTable} {root : Red} {ds : List RawDiag} (h : checkDup t root = .done ds) (d : RawDiag) :
    d ∈ ds ↔ (∃ s ∈ t.symbols, ∃ l, checkScope t root s = .done l ∧ d ∈ l) ∨
      ∃ s ∈ t.symbols, ∃ l, checkLabel t root s = .done l ∧ d ∈ l := by
  unfold checkDup at h
  obtain ⟨a, ha, h⟩ := bind_done h
  obtain ⟨b, hb, h⟩ := bind_done h
  cases h
  rw [List.mem_append, flatten_mem ha, flatten_mem hb]

theorem checkScope_elim {t : SymbolTable} {root : Red} {s : Sym} {l : List RawDiag} (h : checkScope t root s = .done l)
    {d : RawDiag} : d ∈ l ↔ isNamedKind s.kind = true ∧ ∃ name, s.idx.name = some name ∧
      1 < (t.namesakes name s.region).length ∧
      dupDiag root s name ((t.namesakes name s.region).filter fun o => !(o.same s)) = .done d := by
  unfold checkScope at h
  by_cases hk : isNamedKind s.kind = true
  · rw [if_pos hk] at h
    split at h
    · rename_i hn
      cases h
      simp [hn]
    · rename_i name hn
      by_cases hl : 1 < (t.namesakes name s.region).length
      · rw [if_pos hl] at h
        obtain ⟨d', hd', h⟩ := bind_done h
        cases h
        simp only [List.mem_singleton, hk, true_and]
        constructor
        · rintro rfl
          exact ⟨name, hn, hl, hd'⟩
        · rintro ⟨name', h1, _, h3⟩
          rw [hn] at h1; cases h1
          rw [hd'] at h3; cases h3; rfl
      · rw [if_neg hl] at h
        cases h
        constructor
        · intro h; cases h
        · rintro ⟨_, name', h1, h2, _⟩
          rw [hn] at h1; cases h1
          exact absurd h2 hl
  · rw [if_neg hk] at h
    cases h
    simp [hk]

theorem checkLabel_elim {t : SymbolTable} {root : Red} {s : Sym} {l : List RawDiag} (h : checkLabel t root s = .done l)
    {d : RawDiag} : d ∈ l ↔ s.kind = .blockDef ∧ ∃ name, s.idx.name = some name ∧
      1 < (t.outerNamesakes name (s.region.start + 1) s.region ++ t.innerNamesakes s name).length ∧
      dupDiag root s name (t.outerNamesakes name (s.region.start + 1) s.region ++ t.innerNamesakes s name) = .done d := by
  unfold checkLabel at h
  by_cases hk : s.kind = .blockDef
  · rw [if_pos (by simp [hk])] at h
    split at h
    · rename_i hn
      cases h
      simp [hn]
    · rename_i name hn
      dsimp only at h
      by_cases hl : 1 < (t.outerNamesakes name (s.region.start + 1) s.region ++ t.innerNamesakes s name).length
      · rw [if_pos hl] at h
        obtain ⟨d', hd', h⟩ := bind_done h
        cases h
        simp only [List.mem_singleton, hk, true_and]
        constructor
        · rintro rfl
          exact ⟨name, hn, hl, hd'⟩
        · rintro ⟨name', h1, _, h3⟩
          rw [hn] at h1; cases h1
          rw [hd'] at h3; cases h3; rfl
      · rw [if_neg hl] at h
        cases h
        constructor
        · intro h; cases h
        · rintro ⟨_, name', h1, h2, _⟩
          rw [hn] at h1; cases h1
          exact absurd h2 hl
  · rw [if_neg (by simp [hk])] at h
    cases h
    simp [hk]

theorem checkDup_msg {t : SymbolTable} {root : Red} {ds : List RawDiag} (h : checkDup t root = .done ds) {d : RawDiag}
    (hd : d ∈ ds) : d.msg.checker = .dup := by
  rcases (checkDup_elim h d).mp hd with ⟨s, _, l, hl, hd⟩ | ⟨s, _, l, hl, hd⟩
  · obtain ⟨_, name, _, _, h3⟩ := (checkScope_elim hl).mp hd
    rw [dupDiag_msg h3]; rfl
  · obtain ⟨_, name, _, _, h3⟩ := (checkLabel_elim hl).mp hd
    rw [dupDiag_msg h3]; rfl

/-- The parts of the list of diagnostics. -/
theorem diagnostics_elim {src : Text} {root : Red} {errs : List Err} {ds : List Diag}
    (h : diagnostics src root errs = .done ds) :
    ∃ nodes dups, Ans.mapL (checkNode (symbolTable root) root) root.descendants = .done nodes ∧
      checkDup (symbolTable root) root = .done dups ∧
      Ans.mapL (toDiag src) (errs.map (fun e => (⟨e.start, e.stop, .syn e.msg, []⟩ : RawDiag)) ++
        (nodes.flatten ++ checkUndef (symbolTable root) ++ dups)) = .done ds := by
  unfold diagnostics checkRaw at h
  obtain ⟨raw, h1, h⟩ := bind_done h
  dsimp only at h1
  obtain ⟨nodes, h2, h1⟩ := bind_done h1
  obtain ⟨dups, h3, h1⟩ := bind_done h1
  cases h1
  exact ⟨nodes, dups, h2, h3, h⟩

theorem toDiag_msg {src : Text} {r : RawDiag} {d : Diag} (h : toDiag src r = .done d) :
    d.msg = r.msg ∧ IsRange src (r.start, r.stop) d.range := by
  unfold toDiag at h
  obtain ⟨rg, h1, h⟩ := bind_done h
  obtain ⟨rs, _, h⟩ := bind_done h
  cases h
  exact ⟨rfl, rowanRangeToLsp_iff.mp (ofOption_done h1)⟩

theorem toDiag_related {src : Text} {r : RawDiag} {d : Diag} (h : toDiag src r = .done d) :
    r.related.length = d.related.length ∧ ∀ q, q ∈ d.related ↔ ∃ p ∈ r.related, IsRange src p q := by
  unfold toDiag at h
  obtain ⟨rg, _, h⟩ := bind_done h
  obtain ⟨rs, h2, h⟩ := bind_done h
  cases h
  refine ⟨?_, fun q => ?_⟩
  · have := congrArg List.length (mapL_done h2)
    simpa using this
  · rw [mapL_mem h2]
    constructor
    · rintro ⟨p, hp, hq⟩; exact ⟨p, hp, rowanRangeToLsp_iff.mp (ofOption_done hq)⟩
    · rintro ⟨p, hp, hq⟩; exact ⟨p, hp, by rw [rowanRangeToLsp_iff.mpr hq]; rfl⟩

/-- A diagnostic at a range of bytes, if the checker produced one there. -/
theorem toDiag_exists {src : Text} {r : RawDiag} {q : Range} (hr : IsRange src (r.start, r.stop) q)
    {l : List RawDiag} (hl : r ∈ l) {ds : List Diag} (h : Ans.mapL (toDiag src) l = .done ds) :
    ∃ d ∈ ds, toDiag src r = .done d ∧ d.range = q := by
  obtain ⟨d, hd, hf⟩ := mapL_all h r hl
  have := (toDiag_msg hf).2
  exact ⟨d, hd, hf, Option.some.inj ((rowanRangeToLsp_iff.mpr this).symm.trans (rowanRangeToLsp_iff.mpr hr))⟩

theorem checkNode_msg {t : SymbolTable} {root n : Red} {l : List RawDiag} (h : checkNode t root n = .done l) {d : RawDiag}
    (hd : d ∈ l) : (d.msg.checker = .modules ∧ n.kind = .ROOT ∧ d ∈ checkModules n) ∨
      (d.msg.checker = .literal ∧ n.kind = .PLAIN_INSTR ∧ d ∈ checkLiterals n) ∨
      (d.msg.checker = .typing ∧ ((∃ l', n.kind = .PLAIN_INSTR ∧ checkFolded t root n = .done l' ∧ d ∈ l') ∨
        ((n.kind = .MODULE_FIELD_FUNC ∨ n.kind = .MODULE_FIELD_GLOBAL) ∧ checkStacked t root n = .done l))) := by
  unfold checkNode at h
  split at h
  · cases h; exact .inl ⟨checkModules_msg hd, ‹_›, hd⟩
  · exact .inr (.inr ⟨checkStacked_msg h hd, .inr ⟨.inl ‹_›, h⟩⟩)
  · exact .inr (.inr ⟨checkStacked_msg h hd, .inr ⟨.inr ‹_›, h⟩⟩)
  · obtain ⟨ds, h1, h⟩ := bind_done h
    cases h
    rcases List.mem_append.mp hd with hd | hd
    · exact .inr (.inl ⟨checkLiterals_msg hd, ‹_›, hd⟩)
    · exact .inr (.inr ⟨checkFolded_msg h1 hd, .inl ⟨ds, ‹_›, h1, hd⟩⟩)
  · cases h; cases hd

/-- The diagnostics of each checker in the answer. -/
theorem mem_diagnostics {src : Text} {root : Red} {errs : List Err} {ds : List Diag}
    (h : diagnostics src root errs = .done ds) (d : Diag) :
    d ∈ ds ↔ ∃ r, toDiag src r = .done d ∧
      ((∃ e ∈ errs, r = ⟨e.start, e.stop, .syn e.msg, []⟩) ∨
        (∃ n ∈ root.descendants, ∃ l, checkNode (symbolTable root) root n = .done l ∧ r ∈ l) ∨
        r ∈ checkUndef (symbolTable root) ∨ ∃ l, checkDup (symbolTable root) root = .done l ∧ r ∈ l) := by
  obtain ⟨nodes, dups, h1, h2, h3⟩ := diagnostics_elim h
  rw [mapL_mem h3]
  simp only [List.mem_append, List.mem_map, flatten_mem h1]
  constructor
  · rintro ⟨r, hr, hd⟩
    refine ⟨r, hd, ?_⟩
    rcases hr with ⟨e, he, rfl⟩ | (hr | hr) | hr
    · exact .inl ⟨e, he, rfl⟩
    · exact .inr (.inl hr)
    · exact .inr (.inr (.inl hr))
    · exact .inr (.inr (.inr ⟨dups, h2, hr⟩))
  · rintro ⟨r, hd, hr⟩
    refine ⟨r, ?_, hd⟩
    rcases hr with ⟨e, he, rfl⟩ | hr | hr | ⟨l, hl, hr⟩
    · exact .inl ⟨e, he, rfl⟩
    · exact .inr (.inl (.inl hr))
    · exact .inr (.inl (.inr hr))
    · rw [h2] at hl; cases hl; exact .inr (.inr hr)

theorem mapL_filter {f : α → Ans β} {p : α → Bool} {q : β → Bool} (hpq : ∀ a b, f a = .done b → p a = q b) :
    ∀ {l : List α} {bs : List β}, Ans.mapL f l = .done bs → Ans.mapL f (l.filter p) = .done (bs.filter q)
  | [], bs, h => by simp only [Ans.mapL] at h; cases h; rfl
  | a :: l, bs, h => by
    simp only [Ans.mapL] at h
    obtain ⟨b, h1, h⟩ := bind_done h
    obtain ⟨bs', h2, h⟩ := bind_done h
    cases h
    have ih := mapL_filter hpq h2
    have := hpq a b h1
    cases hp : p a with
    | false =>
      rw [List.filter_cons_of_neg (by simp [hp]), List.filter_cons_of_neg (by simp [← this, hp])]
      exact ih
    | true =>
      rw [List.filter_cons_of_pos hp, List.filter_cons_of_pos (by simp [← this, hp])]
      simp only [Ans.mapL, h1, ih, Ans.bind]

theorem mapL_getElem {f : α → Ans β} {l : List α} {bs : List β} (h : Ans.mapL f l = .done bs) :
    l.length = bs.length ∧ ∀ (k : Nat) a b, l[k]? = some a → bs[k]? = some b → f a = .done b := by
  have h := mapL_done h
  refine ⟨by simpa using congrArg List.length h, fun k a b ha hb => ?_⟩
  have := congrArg (·[k]?) h
  simpa [ha, hb] using this

end Verif
