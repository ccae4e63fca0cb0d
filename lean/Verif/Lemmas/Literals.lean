import Verif.Lemmas.CheckRefs
import Verif.Spec.Literals
import Verif.Props.C06
/-!
Helper lemmas for C40: the literal checker.
-/
namespace Verif
open Spec

variable {g : Green}

/-- A node of rank 0 starts with a token that is no literal. -/
theorem rank0_head {k : Kind} {cs : List Green} (h : NodeOk k cs) (hr : rank k = 0) :
    ∃ k' t r, cs = .tok k' t :: r ∧ isLiteral k' = false := by
  obtain ⟨h1, h2, h3, _⟩ := h
  cases cs with
  | nil => exact absurd rfl (h3 (by revert hr; cases k <;> simp [rank, mayBeEmpty]))
  | cons c cs =>
    rw [hr] at h2
    cases c with
    | tok k' t =>
      refine ⟨k', t, cs, rfl, ?_⟩
      cases hl : isLiteral k' with
      | false => rfl
      | true => exact absurd (h2 hl) (by omega)
    | node k' cs' => simp only [HeadOk] at h2; omega

/-- The first token of an operand: at its start; if it is not a direct child, it is no literal. -/
theorem operand_head (hs : Solid g) {x : Red} (hx : InTree g x) (hk : x.kind = .OPERAND) :
    ∃ w, x.tokens.head? = some w ∧ w.off = x.start ∧ (w ∈ x.childToks ∨ isLiteral w.kind = false) := by
  obtain ⟨⟨h1, h2, h3, _⟩, h4, _⟩ := hx.frameOk hs
  obtain ⟨⟨k, cs, off⟩, up⟩ := x
  simp only [Red.kind] at *
  subst hk
  cases cs with
  | nil => exact absurd rfl (h3 rfl)
  | cons c cs =>
    cases c with
    | tok k' s =>
      refine ⟨⟨k', s, off, _⟩, by simp [Red.tokens, toksLs, toksG]; rfl, rfl, .inl ?_⟩
      simp [Red.childToks, Red.els, childEls]
    | node k' cs' =>
      have hk' : k' ∈ allowed .OPERAND := h1 (.node k' cs') (by simp)
      obtain ⟨⟨⟨a1, a2, a3, a5⟩, a4⟩, _⟩ : Shaped (.node k' cs') ∧ _ := h4
      have hne : mayBeEmpty k' = false := head_not_empty hk' h2
      cases cs' with
      | nil => exact absurd rfl (a3 hne)
      | cons d ds =>
        cases d with
        | tok k2 t2 =>
          refine ⟨⟨k2, t2, off, _⟩, by simp [Red.tokens, toksLs, toksG]; rfl, rfl, .inr ?_⟩
          by_cases hr : rank k' = 0
          · obtain ⟨_, _, _, e, b4⟩ := rank0_head ⟨a1, a2, a3, a5⟩ hr
            cases e; exact b4
          · have hk2 : k' = .TYPE_USE := by
              revert hk' hr; cases k' <;> simp [allowed, instrKinds, rank]
            subst hk2
            have b1 : k2 ∈ allowed .TYPE_USE := a1 (.tok k2 t2) (by simp)
            simp only [allowed, form, junk, List.cons_append, List.nil_append, List.mem_cons, List.not_mem_nil, or_false] at b1
            rcases b1 with rfl | rfl | rfl | rfl | rfl | rfl | rfl | rfl | rfl | rfl <;> rfl
        | node k2 cs2 =>
          have b1 : rank k2 < rank k' := a2
          have b2 : rank k' < 2 := h2
          have b3 : rank k2 = 0 := by omega
          obtain ⟨k3, t3, r3, rfl, b4⟩ := rank0_head a4.1.1 b3
          exact ⟨⟨k3, t3, off, _⟩, by simp [Red.tokens, toksLs, toksG]; rfl, rfl, .inr b4⟩

/-- The class of the model that corresponds to a class of the specification. -/
def toClass : Imm → OperandClass
  | .index => .index
  | .int => .int
  | .float => .float
  | .memArg => .memArg

theorem toClass_inj {a b : Imm} (h : toClass a = toClass b) : a = b := by
  cases a <;> cases b <;> first | rfl | cases h

theorem table_sound : ∀ r ∈ immediateTable, classesOf r.1 = r.2.map toClass := by decide +kernel

theorem table_complete : ∀ r ∈ operandClasses, ∀ n ∈ r.1, n ∈ immediateTable.map (·.1) := by decide +kernel

theorem classesOf_table {n : Text} (h : classesOf n ≠ []) : ∃ cs, (n, cs) ∈ immediateTable := by
  unfold classesOf at h
  split at h
  · rename_i r hr
    have h1 := List.mem_of_find?_eq_some hr
    have h2 := List.find?_some (p := fun r : List Text × List OperandClass => r.1.contains n) hr
    obtain ⟨⟨a, cs⟩, h3, rfl⟩ := List.mem_map.mp (table_complete r h1 n (List.contains_iff_mem.mp h2))
    exact ⟨cs, h3⟩
  · exact absurd rfl h

theorem isIdent_head {t : Text} (h : IsIdent t) : t.head? = some '$' := by obtain ⟨r, rfl, _⟩ := h; rfl

theorem isUnsigned_head {t : Text} (h : IsUnsigned t) : ∃ c, t.head? = some c ∧ c ∈ digits := by
  rcases h with ⟨h, r, rfl, h1, _⟩ | ⟨r, rfl, _⟩
  · exact ⟨h, rfl, h1⟩
  · exact ⟨'0', rfl, by decide⟩

theorem isInt_head {t : Text} (h : IsInt t) : ∃ c, t.head? = some c ∧ c ∈ '+' :: '-' :: digits := by
  rcases h with h | ⟨r, rfl | rfl, _⟩
  · obtain ⟨c, h1, h2⟩ := isUnsigned_head h
    exact ⟨c, h1, by simp [h2]⟩
  · exact ⟨_, rfl, by simp⟩
  · exact ⟨_, rfl, by simp⟩

theorem isFloat_head {t : Text} (h : IsFloat t) : ∃ c, t.head? = some c ∧ c ∈ '+' :: '-' :: 'i' :: 'n' :: digits := by
  obtain ⟨⟨s, m, rfl, hs, hm⟩, _⟩ := h
  rcases hs with rfl | rfl | rfl
  · have : ∃ c, m.head? = some c ∧ c ∈ 'i' :: 'n' :: digits := by
      rcases hm with rfl | rfl | ⟨r, rfl, _⟩ | ⟨i, f, x, rfl, ⟨h, r, rfl, h1, _⟩, _⟩ | ⟨r, rfl, _⟩
      · exact ⟨_, rfl, by simp⟩
      · exact ⟨_, rfl, by simp⟩
      · exact ⟨_, rfl, by simp⟩
      · exact ⟨_, rfl, by simp [h1]⟩
      · exact ⟨_, rfl, by simp [digits]⟩
    obtain ⟨c, h1, h2⟩ := this
    exact ⟨c, h1, by simp only [List.mem_cons] at h2 ⊢; exact .inr (.inr h2)⟩
  · exact ⟨_, rfl, by simp⟩
  · exact ⟨_, rfl, by simp⟩

/-- The tokens an operand can consist of are told apart by their texts. -/
theorem accepts_iff {c : Imm} {k : Kind} {t : Text} (hk : k ∈ allowed .OPERAND) (ht : TokenShape k t) :
    (toClass c).accepts k = true ↔ c.Fits t := by
  have hs : IsString t → t.head? = some '"' := by rintro ⟨b, _, rfl | rfl⟩ <;> rfl
  have hm : (∃ r, (t = t!"offset=" ++ r ∨ t = t!"align=" ++ r) ∧ IsUnsigned r) → t.head? = some 'o' ∨ t.head? = some 'a' := by
    rintro ⟨r, rfl | rfl, _⟩
    · exact .inl rfl
    · exact .inr rfl
  have hh : t ∈ [t!"func", t!"extern"] → t.head? = some 'f' ∨ t.head? = some 'e' := by
    simp only [List.mem_cons, List.not_mem_nil, or_false]
    rintro (rfl | rfl)
    · exact .inl rfl
    · exact .inr rfl
  have hid : IsIdent t → t.head? = some '$' := isIdent_head
  have hin : IsInt t → ∃ c, t.head? = some c ∧ c ∈ '+' :: '-' :: digits := isInt_head
  have hfl : IsFloat t → ∃ c, t.head? = some c ∧ c ∈ '+' :: '-' :: 'i' :: 'n' :: digits := isFloat_head
  have hne : ∀ {a : Char} {l : List Char}, (∃ c, t.head? = some c ∧ c ∈ l) → t.head? = some a → a ∈ l := by
    rintro a l ⟨c, h1, h2⟩ h3
    rw [h1] at h3; cases h3; exact h2
  have d1 : ∀ a ∈ ['$', '"', 'o', 'a', 'f', 'e'], a ∉ '+' :: '-' :: digits := by decide
  have d2 : ∀ a ∈ ['$', '"', 'o', 'a', 'f', 'e'], a ∉ '+' :: '-' :: 'i' :: 'n' :: digits := by decide
  have nint : ∀ a ∈ ['$', '"', 'o', 'a', 'f', 'e'], t.head? = some a → ¬ IsInt t := fun a ha h hi => d1 a ha (hne (hin hi) h)
  have nfl : ∀ a ∈ ['$', '"', 'o', 'a', 'f', 'e'], t.head? = some a → ¬ IsFloat t := fun a ha h hi => d2 a ha (hne (hfl hi) h)
  have nid : ∀ a, a ≠ '$' → t.head? = some a → ¬ IsIdent t := by
    intro a ha h hi; rw [hid hi] at h; cases h; exact ha rfl
  have nm : ∀ a, a ≠ 'o' → a ≠ 'a' → t.head? = some a → ¬ ∃ r, (t = t!"offset=" ++ r ∨ t = t!"align=" ++ r) ∧ IsUnsigned r := by
    intro a h1 h2 h hi
    rcases hm hi with h3 | h3 <;> rw [h3] at h <;> cases h
    · exact h1 rfl
    · exact h2 rfl
  have num_id : (∃ c, t.head? = some c ∧ c ∈ '+' :: '-' :: 'i' :: 'n' :: digits) → ¬ IsIdent t ∧
      ¬ ∃ r, (t = t!"offset=" ++ r ∨ t = t!"align=" ++ r) ∧ IsUnsigned r := by
    intro h
    refine ⟨fun hi => d2 _ (by simp) (hne h (hid hi)), fun hi => ?_⟩
    rcases hm hi with h3 | h3
    · exact d2 _ (by simp) (hne h h3)
    · exact d2 _ (by simp) (hne h h3)
  simp only [allowed, instrKinds, List.cons_append, List.nil_append, List.mem_cons, List.not_mem_nil, or_false] at hk
  rcases hk with rfl | rfl | rfl | rfl | rfl | rfl | rfl | rfl | rfl | rfl | rfl <;> try exact False.elim ht
  · have ht : IsInt t := ht
    obtain ⟨ch, h1, h2⟩ := hin ht
    obtain ⟨e1, e2⟩ := num_id ⟨ch, h1, by simp only [List.mem_cons] at h2 ⊢; rcases h2 with h | h | h <;> simp [h]⟩
    cases c <;> simp [toClass, OperandClass.accepts, Imm.Fits, ht]
    intro r h hr; exact e2 ⟨r, h, hr⟩
  · have ht : IsFloat t ∧ ¬ IsInt t := ht
    obtain ⟨e1, e2⟩ := num_id (hfl ht.1)
    cases c <;> simp [toClass, OperandClass.accepts, Imm.Fits, ht, e1]
    intro r h hr; exact e2 ⟨r, h, hr⟩
  · have h := hs ht
    have e1 := nint _ (by simp) h
    have e2 := nfl _ (by simp) h
    have e3 := nid _ (by decide) h
    have e4 := nm _ (by decide) (by decide) h
    cases c <;> simp [toClass, OperandClass.accepts, Imm.Fits, e1, e2, e3]
    intro r h hr; exact e4 ⟨r, h, hr⟩
  · have ht : IsIdent t := ht
    have h := hid ht
    have e1 := nint _ (by simp) h
    have e2 := nfl _ (by simp) h
    have e4 := nm _ (by decide) (by decide) h
    cases c <;> simp [toClass, OperandClass.accepts, Imm.Fits, e1, e2, ht]
    intro r h hr; exact e4 ⟨r, h, hr⟩
  · have ht : ∃ r, (t = t!"offset=" ++ r ∨ t = t!"align=" ++ r) ∧ IsUnsigned r := ht
    have : ¬ IsInt t ∧ ¬ IsFloat t ∧ ¬ IsIdent t := by
      rcases hm ht with h | h
      · exact ⟨nint _ (by simp) h, nfl _ (by simp) h, nid _ (by decide) h⟩
      · exact ⟨nint _ (by simp) h, nfl _ (by simp) h, nid _ (by decide) h⟩
    cases c <;> simp only [toClass, OperandClass.accepts, Imm.Fits, this.1, this.2.1, this.2.2] <;> simp
    simpa using ht
  · have : ¬ IsInt t ∧ ¬ IsFloat t ∧ ¬ IsIdent t ∧ ¬ ∃ r, (t = t!"offset=" ++ r ∨ t = t!"align=" ++ r) ∧ IsUnsigned r := by
      rcases hh ht with h | h
      · exact ⟨nint _ (by simp) h, nfl _ (by simp) h, nid _ (by decide) h, nm _ (by decide) (by decide) h⟩
      · exact ⟨nint _ (by simp) h, nfl _ (by simp) h, nid _ (by decide) h, nm _ (by decide) (by decide) h⟩
    cases c <;> simp only [toClass, OperandClass.accepts, Imm.Fits, this.1, this.2.1, this.2.2.1, this.2.2.2] <;> simp

theorem accepts_literal {c : OperandClass} {k : Kind} (h : c.accepts k = true) : isLiteral k = true := by
  revert h; cases c <;> cases k <;> simp [OperandClass.accepts, isLiteral]

/-- The checker accepts an operand if it is a fitting literal. -/
theorem accepts_operand (hs : Solid g) (hsh : ∀ kt ∈ g.toks, TokenShape kt.1 kt.2) {x : Red} (hx : InTree g x)
    (hk : x.kind = .OPERAND) {w : Tok} (hw : x.tokens.head? = some w) (c : Imm) :
    (toClass c).accepts w.kind = true ↔ c.FitsOperand x := by
  have shape : ∀ t ∈ x.childToks, TokenShape t.kind t.text := by
    intro t ht
    have h1 := tok_mem hx ht
    obtain ⟨cs, rfl⟩ := hs.root
    exact hsh (t.kind, t.text) (by rw [← Red.tokens_text]; exact List.mem_map.mpr ⟨t, h1, rfl⟩)
  constructor
  · intro h
    obtain ⟨w', h1, _, h2⟩ := operand_head hs hx hk
    rw [hw] at h1; cases h1
    rcases h2 with h2 | h2
    · have hkk := hx.tok_kind hs h2
      rw [hk] at hkk
      exact ⟨w, h2, hw, (accepts_iff hkk (shape w h2)).mp h⟩
    · rw [accepts_literal h] at h2; cases h2
  · rintro ⟨w', h1, h2, h3⟩
    rw [hw] at h2; cases h2
    have hkk := hx.tok_kind hs h1
    rw [hk] at hkk
    exact (accepts_iff hkk (shape w h1)).mpr h3

theorem Spec.IsImmediate.operand {x : Red} {c : Imm} (h : IsImmediate g x c) : InTree g x ∧ x.kind = .OPERAND ∧
    ∃ p, InTree g p ∧ p.kind = .PLAIN_INSTR ∧ x ∈ p.children := by
  obtain ⟨h1, h2, _, _, _, h3⟩ := h
  obtain ⟨h4, h5⟩ := List.mem_filter.mp (List.mem_of_getElem? h3)
  exact ⟨InTree.child h1 h4, beq_iff_eq.mp h5, _, h1, h2, h4⟩

/-- The literal diagnostics of a node. -/
theorem mem_checkLiterals {n : Red} (hn : n ∈ (Red.root g).descendants) (hk : n.kind = .PLAIN_INSTR) {r : RawDiag} :
    r ∈ checkLiterals n ↔ ∃ t, n.token .INSTR_NAME = some t ∧ ∃ cs, (t.text, cs) ∈ immediateTable ∧ ∃ (k : Nat) (c : Imm) (x : Red) (w : Tok),
      cs[k]? = some c ∧ (n.children.filter fun o => o.kind == .OPERAND)[k]? = some x ∧ x.tokens.head? = some w ∧
      (toClass c).accepts w.kind = false ∧ r = ⟨w.off, w.stop, (toClass c).msg, []⟩ := by
  unfold checkLiterals Red.instrName
  cases ht : n.token .INSTR_NAME with
  | none => simp
  | some t =>
    simp only [Option.map_some, List.mem_flatten, List.mem_map]
    constructor
    · rintro ⟨l, ⟨⟨oc, x⟩, hp, rfl⟩, hr⟩
      obtain ⟨k, hk, hkp⟩ := List.mem_iff_getElem.mp hp
      have hkp' := (List.getElem?_eq_some_iff.mpr ⟨hk, hkp⟩)
      rw [List.getElem?_zip_eq_some] at hkp'
      obtain ⟨h1, h2⟩ := hkp'
      obtain ⟨cs, hcs⟩ := classesOf_table (n := t.text) (by intro h; rw [h] at h1; cases h1)
      have := table_sound _ hcs
      rw [this] at h1
      simp only [List.getElem?_map, Option.map_eq_some_iff] at h1
      obtain ⟨c, h3, h4⟩ := h1
      unfold checkLiteral at hr
      split at hr
      · cases hr
      · rename_i w hw
        split at hr
        · cases hr
        · rename_i ha
          rw [List.mem_singleton] at hr
          simp only at h4 hw
          subst h4
          exact ⟨t, rfl, cs, hcs, k, c, x, w, h3, h2, hw, by simpa using ha, hr⟩
    · rintro ⟨t', h0, cs, hcs, k, c, x, w, h3, h2, hw, ha, rfl⟩
      cases h0
      refine ⟨checkLiteral (toClass c) x, ⟨(toClass c, x), ?_, rfl⟩, ?_⟩
      · refine List.mem_of_getElem? (i := k) ?_
        rw [List.getElem?_zip_eq_some]
        refine ⟨?_, h2⟩
        rw [table_sound _ hcs]
        simp [h3]
      · unfold checkLiteral
        rw [hw]
        simp [ha]

/-- All literal diagnostics. -/
theorem mem_literal {src : Text} {errs : List Err} {ds : List Diag} (hd : diagnostics src (Red.root g) errs = .done ds)
    {d : Diag} (hm : d.msg.checker = .literal) :
    d ∈ ds ↔ d.related = [] ∧ ∃ x c w, IsImmediate g x c ∧ x.tokens.head? = some w ∧ (toClass c).accepts w.kind = false ∧
      d.msg = (toClass c).msg ∧ IsRange src (w.off, w.stop) d.range := by
  rw [mem_diagnostics hd]
  constructor
  · rintro ⟨r, h1, h2⟩
    have hmr := (toDiag_msg h1).1
    have hc : r.msg.checker = .literal := by rw [← hmr, hm]
    rcases h2 with ⟨e, _, rfl⟩ | ⟨n, hn, l, h3, h4⟩ | h3 | ⟨l, h3, h4⟩
    · cases hc
    · rcases checkNode_msg h3 h4 with h5 | h5 | h5
      · rw [h5.1] at hc; cases hc
      · obtain ⟨t, k1, cs, k2, k, c, x, w, k3, k4, k5, k6, rfl⟩ := (mem_checkLiterals hn h5.2.1).mp h5.2.2
        exact ⟨List.eq_nil_of_length_eq_zero (toDiag_related h1).1.symm, x, c, w, ⟨hn, h5.2.1, k1, k2, k3, k4⟩, k5, k6, hmr,
          (toDiag_msg h1).2⟩
      · rw [h5.1] at hc; cases hc
    · rw [checkUndef_msg h3] at hc; cases hc
    · rw [checkDup_msg h3 h4] at hc; cases hc
  · rintro ⟨h1, x, c, w, h2, h3, h4, h5, h6⟩
    refine ⟨⟨w.off, w.stop, (toClass c).msg, []⟩, ?_, .inr (.inl ?_)⟩
    · unfold toDiag
      rw [isRange_eq h6]
      cases d
      cases h1; cases h5
      rfl
    · obtain @⟨p, t, cs, k, k1, k2, k3, k4, k5, k6⟩ := h2
      obtain ⟨nodes, dups, e1, _, _⟩ := diagnostics_elim hd
      obtain ⟨l, hl1, hl2⟩ := mapL_all e1 p k1
      refine ⟨p, k1, l, hl2, ?_⟩
      unfold checkNode at hl2
      rw [k2] at hl2
      simp only at hl2
      obtain ⟨l', hl3, hl4⟩ := bind_done hl2
      cases hl4
      simp only [List.mem_append]
      first
        | exact .inl ((mem_checkLiterals k1 k2).mpr ⟨t, k3, cs, k4, k, c, x, w, k5, k6, h3, h4, rfl⟩)
        | exact .inr ((mem_checkLiterals k1 k2).mpr ⟨t, k3, cs, k4, k, c, x, w, k5, k6, h3, h4, rfl⟩)

/-- Immediates with the same first token are the same. -/
theorem Spec.IsImmediate.tok_inj (hs : Solid g) {x x' : Red} {c c' : Imm} (h : IsImmediate g x c) (h' : IsImmediate g x' c')
    {w w' : Tok} (hw : x.tokens.head? = some w) (hw' : x'.tokens.head? = some w') (he : (w.off, w.stop) = (w'.off, w'.stop)) :
    x = x' ∧ c = c' := by
  have key : ∀ {x x' : Red}, InTree g x → InTree g x' → (∃ p, InTree g p ∧ p.kind = .PLAIN_INSTR ∧ x ∈ p.children) →
      x'.kind = .OPERAND → x.start = x'.start → ¬ x.StrictlyBelow x' := by
    rintro x x' hx hx' ⟨p, hp, hpk, hpc⟩ hk' hst hb
    have hxp : x.StrictlyBelow p := StrictlyBelow.of_mem_ancestors (Red.parent_mem_ancestors (Red.parent_of_child hpc)) (by
      intro h; subst h
      have := (Red.mem_children.mp hpc).2
      have := congrArg List.length this
      simp at this)
    have hxp' : p = x' ∨ p.StrictlyBelow x' := by
      obtain ⟨l, hl, e⟩ := hb
      rw [(Red.mem_children.mp hpc).2] at e
      cases l with
      | nil => exact absurd rfl hl
      | cons f l =>
        simp only [List.cons_append, List.cons.injEq] at e
        cases l with
        | nil =>
          simp only [List.nil_append, List.cons.injEq] at e
          obtain ⟨a, b⟩ := p
          obtain ⟨a', b'⟩ := x'
          simp only at e
          exact .inl (by rw [e.2.1, e.2.2])
        | cons f' l => exact .inr ⟨f' :: l, by simp, e.2⟩
    rcases hxp' with rfl | hpx
    · rw [hpk] at hk'; cases hk'
    · have e1 := StrictlyBelow.within hxp (inTree_iff.mp hx)
      have e2 := StrictlyBelow.within hpx (inTree_iff.mp hp)
      have := StrictlyBelow.rank_lt hs hx hxp (by omega)
      rw [hpk] at this
      simp [rank] at this
  obtain ⟨h1, h2, h3⟩ := h.operand
  obtain ⟨h1', h2', h3'⟩ := h'.operand
  obtain ⟨u, hu, hu1, _⟩ := operand_head hs h1 h2
  obtain ⟨u', hu', hu1', _⟩ := operand_head hs h1' h2'
  rw [hw] at hu; cases hu
  rw [hw'] at hu'; cases hu'
  simp only [Prod.mk.injEq] at he
  have hst : x.start = x'.start := by omega
  have hxx : x = x' := by
    have p1 := (h1.frameOk hs).pos (by rw [show x.self.kind = _ from h2]; rfl)
    have p2 := (h1'.frameOk hs).pos (by rw [show x'.self.kind = _ from h2']; rfl)
    have q1 : x.start < x.stop := p1
    have q2 : x'.start < x'.stop := p2
    rcases h1.nested h1' with h | h | h | h | h
    · exact h
    · exact absurd h (key h1 h1' h3 h2' hst)
    · exact absurd h (key h1' h1 h3' h2 hst.symm)
    · omega
    · omega
  subst hxx
  refine ⟨rfl, ?_⟩
  obtain @⟨p, t, cs, k, k1, k2, k3, k4, k5, k6⟩ := h
  obtain @⟨p', t', cs', k', k1', k2', k3', k4', k5', k6'⟩ := h'
  have hm := (List.mem_filter.mp (List.mem_of_getElem? k6)).1
  have hm' := (List.mem_filter.mp (List.mem_of_getElem? k6')).1
  have := (Red.parent_of_child hm).symm.trans (Red.parent_of_child hm')
  cases this
  rw [k3] at k3'; cases k3'
  have e1 : classesOf t.text = cs.map toClass := table_sound _ k4
  have e2 : classesOf t.text = cs'.map toClass := table_sound _ k4'
  have e := e1.symm.trans e2
  have hcs : cs = cs' := by
    have := (List.map_inj_right (f := toClass) (fun a b h => toClass_inj h)).mp e
    exact this
  subst hcs
  have hkk : k = k' := by
    have hp := (Red.children_order p).filter fun o => o.kind == .OPERAND
    rw [List.pairwise_iff_getElem] at hp
    obtain ⟨l1, e1⟩ := List.getElem?_eq_some_iff.mp k6
    obtain ⟨l2, e2⟩ := List.getElem?_eq_some_iff.mp k6'
    have p1 : x.start < x.stop := (h1.frameOk hs).pos (by rw [show x.self.kind = _ from h2]; rfl)
    rcases Nat.lt_trichotomy k k' with hlt | rfl | hlt
    · have := hp _ _ l1 l2 hlt
      rw [e1, e2] at this; omega
    · rfl
    · have := hp _ _ l2 l1 hlt
      rw [e1, e2] at this; omega
  subst hkk
  rw [k5] at k5'; cases k5'; rfl

end Verif
