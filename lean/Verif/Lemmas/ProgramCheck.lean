import Verif.Lemmas.AcceptModule
/-!
Helper lemmas: sufficient checks for being a program and for consisting of tokens, to build concrete examples.
-/
namespace Verif
open Spec

/-- A sufficient check for `Spec.Match`. -/
def matchB : Nat → List Item → List Green → Bool
  | 0, _, _ => false
  | _ + 1, [], l => l.isEmpty
  | n + 1, .one ts :: is, l => match l with
    | [] => false
    | g :: l => ts.any (termB g) && matchB n is l
  | n + 1, .opt ts :: is, l => matchB n is l || match l with
    | [] => false
    | g :: l => ts.any (termB g) && matchB n is l
  | n + 1, .many ts :: is, l => matchB n is l || match l with
    | [] => false
    | g :: l => ts.any (termB g) && matchB n (.many ts :: is) l
where
  /-- `Spec.Term.is`. -/
  termB (g : Green) : Term → Bool
    | .tok k => match g with | .tok k' _ => k' == k | _ => false
    | .node k => match g with | .node k' _ => k' == k | _ => false
    | .word w => match g with | .tok k' t => k' == .KEYWORD && t == w | _ => false

theorem termB_sound {g : Green} {t : Term} (h : matchB.termB g t = true) : t.is g := by
  cases t <;> cases g <;> simp_all [matchB.termB, Term.is]

theorem any_sound {g : Green} {ts : List Term} (h : ts.any (matchB.termB g) = true) : ∃ t ∈ ts, t.is g := by
  obtain ⟨t, h1, h2⟩ := List.any_eq_true.mp h
  exact ⟨t, h1, termB_sound h2⟩

theorem matchB_sound : ∀ (n : Nat) {is : List Item} {l : List Green}, matchB n is l = true → Match is l
  | 0, _, _, h => by simp [matchB] at h
  | n + 1, [], l, h => by
    simp only [matchB, List.isEmpty_iff] at h
    subst h; exact .nil
  | n + 1, .one ts :: is, l, h => by
    cases l with
    | nil => simp [matchB] at h
    | cons g l =>
      simp only [matchB, Bool.and_eq_true] at h
      obtain ⟨t, h1, h2⟩ := any_sound h.1
      exact .one h1 h2 (matchB_sound n h.2)
  | n + 1, .opt ts :: is, l, h => by
    cases l with
    | nil => simp only [matchB, Bool.or_false] at h; exact .skip (matchB_sound n h)
    | cons g l =>
      simp only [matchB, Bool.or_eq_true, Bool.and_eq_true] at h
      rcases h with h | h
      · exact .skip (matchB_sound n h)
      · obtain ⟨t, h1, h2⟩ := any_sound h.1
        exact .opt h1 h2 (matchB_sound n h.2)
  | n + 1, .many ts :: is, l, h => by
    cases l with
    | nil => simp only [matchB, Bool.or_false] at h; exact .stop (matchB_sound n h)
    | cons g l =>
      simp only [matchB, Bool.or_eq_true, Bool.and_eq_true] at h
      rcases h with h | h
      · exact .stop (matchB_sound n h)
      · obtain ⟨t, h1, h2⟩ := any_sound h.1
        exact .more h1 h2 (matchB_sound n h.2)

/-- A sufficient check for `Spec.InstrWord`. -/
def instrB (w : Text) : Bool :=
  wordB w && !reservedWords.contains w && !(w == t!"inf") && !(w == t!"nan") && !t!"nan:".isPrefixOf w &&
    !t!"offset=".isPrefixOf w && !t!"align=".isPrefixOf w

theorem instrB_sound {w : Text} (h : instrB w = true) : InstrWord w := by
  simp only [instrB, Bool.and_eq_true, Bool.not_eq_true', beq_eq_false_iff_ne, ne_eq] at h
  obtain ⟨⟨⟨⟨⟨⟨h1, h2⟩, h3⟩, h4⟩, h5⟩, h6⟩, h7⟩ := h
  refine ⟨wordB_isWord h1, fun hc => ?_, ?_, fun hc => ?_, fun hc => ?_⟩
  · rw [List.contains_iff_mem.mpr hc] at h2; cases h2
  · rintro ⟨⟨g, m, rfl, hg, hm⟩, _⟩
    obtain ⟨c, r, e, hc, _⟩ := wordB_isWord h1
    have low : ∀ d ∈ digits, d ∉ lowers := by decide
    rcases hg with rfl | rfl | rfl
    · rcases hm with rfl | rfl | ⟨r, rfl, _⟩ | ⟨i, f, x, rfl, ⟨d, i, rfl, hd, _⟩, _⟩ | ⟨r, rfl, _⟩
      · exact h3 rfl
      · exact h4 rfl
      · cases h5
      · simp only [List.nil_append, List.cons_append, List.cons.injEq] at e
        exact low d hd (e.1 ▸ hc)
      · simp only [List.nil_append, List.cons.injEq] at e
        exact low '0' (by decide) (e.1 ▸ hc)
    · simp only [List.cons_append, List.cons.injEq] at e
      exact absurd (e.1 ▸ hc) (by decide)
    · simp only [List.cons_append, List.cons.injEq] at e
      exact absurd (e.1 ▸ hc) (by decide)
  · rw [List.isPrefixOf_iff_prefix.mpr hc] at h6; cases h6
  · rw [List.isPrefixOf_iff_prefix.mpr hc] at h7; cases h7

/-- A string without escapes. -/
def stringB (t : Text) : Bool :=
  match t with
  | '"' :: r => (r.dropLast.all fun c => !(c == '"' || c == '\\' || c == '\n' || c == '\r')) && r.getLast? == some '"'
  | _ => false

theorem strBody_plain : ∀ {b : Text}, (b.all fun c => !(c == '"' || c == '\\' || c == '\n' || c == '\r')) = true → StrBody b
  | [], _ => .nil
  | c :: b, h => by
    simp only [List.all_cons, Bool.and_eq_true] at h
    exact .char c b (by simpa [and_assoc] using h.1) (strBody_plain h.2)

theorem stringB_sound {t : Text} (h : stringB t = true) : ClosedString t := by
  unfold stringB at h
  split at h
  · rename_i r
    simp only [Bool.and_eq_true, beq_iff_eq] at h
    refine ⟨r.dropLast, strBody_plain h.1, ?_⟩
    have hne : r ≠ [] := by rintro rfl; simp at h
    rw [List.getLast?_eq_some_getLast hne] at h
    rw [← Option.some.inj h.2, List.dropLast_concat_getLast]
  · cases h

/-- A number of decimal digits. -/
def digitsB (t : Text) : Bool := !t.isEmpty && t.all fun c => digits.contains c

theorem digitsB_sound {t : Text} (h : digitsB t = true) : IsUnsigned t := by
  simp only [digitsB, Bool.and_eq_true, Bool.not_eq_true', List.all_eq_true, List.contains_iff_mem] at h
  cases t with
  | nil => simp at h
  | cons c r =>
    refine .inl ⟨c, r, rfl, h.2 c (.head _), fun d hd => .inl (h.2 d (.tail _ hd)), fun e => ?_⟩
    exact absurd (h.2 '_' (List.mem_of_getLast? e)) (by decide)

/-- A sufficient check for the tokens of a program. -/
def tokB : Kind → Text → Bool
  | .L_PAREN, t => t == ['(']
  | .R_PAREN, t => t == [')']
  | .KEYWORD, t => keywords.contains t
  | .INSTR_NAME, t => instrB t
  | .IDENT, t => match t with | '$' :: r => !r.isEmpty && r.all fun c => idChars.contains c | _ => false
  | .STRING, t => stringB t
  | .INT, t => digitsB t
  | .UNSIGNED_INT, t => digitsB t
  | .NUM_TYPE, t => [t!"i32", t!"i64", t!"f32", t!"f64"].contains t
  | .VEC_TYPE, t => t == t!"v128"
  | .REF_TYPE, t => [t!"funcref", t!"externref"].contains t
  | .HEAP_TYPE, t => [t!"func", t!"extern"].contains t
  | .SHARE, t => [t!"shared", t!"unshared"].contains t
  | _, _ => false

theorem tokB_sound {k : Kind} {t : Text} (h : tokB k t = true) : TokenShape k t ∧ TokenFine k t := by
  cases k <;> simp only [tokB, beq_iff_eq, List.contains_iff_mem, Bool.false_eq_true] at h <;> try exact ⟨h, trivial⟩
  case INSTR_NAME => exact ⟨(instrB_sound h).1, instrB_sound h⟩
  case IDENT =>
    split at h
    · rename_i r
      simp only [Bool.and_eq_true, Bool.not_eq_true', List.all_eq_true, List.contains_iff_mem] at h
      exact ⟨⟨r, rfl, by rintro rfl; simp at h, h.2⟩, trivial⟩
    · cases h
  case STRING =>
    obtain ⟨b, h1, h2⟩ := stringB_sound h
    exact ⟨⟨b, h1, .inl h2⟩, b, h1, h2⟩
  case INT => exact ⟨.inl (digitsB_sound h), trivial⟩
  case UNSIGNED_INT => exact ⟨digitsB_sound h, trivial⟩

/-- `Spec.BeginsWith`. -/
def beginsB (k : Kind) : Green → Bool
  | .node _ (x :: _) => x.kind == k
  | _ => false

theorem beginsB_iff {k : Kind} {g : Green} : beginsB k g = true ↔ BeginsWith k g := by
  constructor
  · intro h
    unfold beginsB at h
    split at h
    · exact ⟨_, _, _, rfl, by simpa using h⟩
    · cases h
  · rintro ⟨k', x, r, rfl, h⟩
    simpa [beginsB] using h

/-- `Spec.StartsWithIdent`. -/
def startsB (g : Green) : Bool :=
  match lexemes g with
  | ('$' :: _) :: _ => true
  | _ => false

theorem startsB_of {g : Green} (h : StartsWithIdent g) : startsB g = true := by
  obtain ⟨t, r, e⟩ := h
  simp [startsB, e]

/-- Neighbours, none an identifier after what may be a block. -/
def adjB : List Green → Bool
  | x :: y :: l => (![Kind.BLOCK_BLOCK, .BLOCK_LOOP, .OPERAND, .OFFSET].contains x.kind || !startsB y) && adjB (y :: l)
  | _ => true

theorem adjB_sound : ∀ {l : List Green}, adjB l = true → ∀ a x y b, l = a ++ x :: y :: b → Unlabelled x → ¬ StartsWithIdent y
  | [], _, a, x, y, b, e, _, _ => by simp at e
  | [z], _, a, x, y, b, e, _, _ => by
    have := congrArg List.length e
    simp at this
    omega
  | z :: w :: l, h, a, x, y, b, e, hu, hs => by
    simp only [adjB, Bool.and_eq_true] at h
    cases a with
    | nil =>
      simp only [List.nil_append, List.cons.injEq] at e
      obtain ⟨rfl, rfl, _⟩ := e
      have h1 := h.1
      rw [startsB_of hs] at h1
      cases hu with
      | block hk _ => rcases hk with rfl | rfl <;> simp [Green.kind] at h1
      | inside hk _ => rcases hk with rfl | rfl <;> simp [Green.kind] at h1
    | cons c a =>
      simp only [List.cons_append, List.cons.injEq] at e
      exact adjB_sound h.2 a x y b e.2 hu hs

/-- A sufficient check for `Spec.Regular`. -/
def regB (k : Kind) (cs : List Green) : Bool :=
  (match k with
  | .PLAIN_INSTR => match cs with
    | .tok .INSTR_NAME _ :: r => r.all fun g => match g with
      | .node .OPERAND o => o.all fun c => !instructionKinds.contains c.kind
      | _ => true
    | _ => true
  | .OPERAND => cs.all fun g => !(instructionKinds.contains g.kind || g.kind == .TYPE_USE) || beginsB .L_PAREN g
  | .BLOCK_TYPE => cs.all fun g => !(g.kind == .TYPE_USE) || !beginsB .RESULT g
  | .BLOCK_IF => cs.all fun g => !(g.kind == .BLOCK_IF_THEN || g.kind == .BLOCK_IF_ELSE) ||
      (beginsB .L_PAREN g == match cs with | .tok .L_PAREN _ :: _ => true | _ => false)
  | .OFFSET => match cs with
    | [g] => !instructionKinds.contains g.kind || beginsB .L_PAREN g
    | _ => true
  | .ELEM_EXPR => match cs with
    | [g] => !instructionKinds.contains g.kind || beginsB .L_PAREN g
    | _ => true
  | .MODULE_FIELD_ELEM => match cs with
    | _ :: _ :: .node .ELEM_LIST c :: _ => !startsB (.node .ELEM_LIST c)
    | _ => true
  | _ => true) && adjB cs

theorem imp_of {a b : Bool} (h : (!a || b) = true) (ha : a = true) : b = true := by
  subst ha; simpa using h

theorem regB_sound {k : Kind} {cs : List Green} (h : regB k cs = true) : Regular k cs := by
  unfold regB at h
  rw [Bool.and_eq_true] at h
  refine ⟨?_, adjB_sound h.2⟩
  obtain ⟨h, _⟩ := h
  cases k <;> try trivial
  case PLAIN_INSTR =>
    rintro t r rfl o c ho hc hk
    have := List.all_eq_true.mp (List.all_eq_true.mp h _ ho) c hc
    rw [List.contains_iff_mem.mpr hk] at this
    cases this
  case OPERAND =>
    intro g hg hk
    refine beginsB_iff.mp (imp_of (List.all_eq_true.mp h g hg) ?_)
    simpa using hk
  case BLOCK_TYPE =>
    intro g hg hk hb
    have := imp_of (List.all_eq_true.mp h g hg) (by simpa using hk)
    rw [beginsB_iff.mpr hb] at this
    cases this
  case BLOCK_IF =>
    intro g hg hk
    have := imp_of (List.all_eq_true.mp h g hg) (by simpa using hk)
    rw [beq_iff_eq] at this
    rw [← beginsB_iff, this]
    constructor
    · intro hh
      split at hh
      · exact ⟨_, _, rfl⟩
      · cases hh
    · rintro ⟨t, r, rfl⟩
      rfl
  case OFFSET =>
    rintro g rfl hk
    exact beginsB_iff.mp (imp_of h (List.contains_iff_mem.mpr hk))
  case ELEM_EXPR =>
    rintro g rfl hk
    exact beginsB_iff.mp (imp_of h (List.contains_iff_mem.mpr hk))
  case MODULE_FIELD_ELEM =>
    rintro a b c r rfl hs
    simp only [startsB_of hs] at h
    cases h

mutual
/-- A sufficient check for `Spec.WellFormed`. -/
def wfB : Green → Bool
  | .tok k t => tokB k t
  | .node k cs => (productions k).any (fun p => matchB (p.length + cs.length + 1) p cs) && regB k cs && wfLB cs
@[inherit_doc wfB] def wfLB : List Green → Bool
  | [] => true
  | g :: gs => wfB g && wfLB gs
end

mutual
theorem wfB_sound : ∀ (g : Green), wfB g = true → WellFormed g
  | .tok k t, h => .tok (tokB_sound h).1 (tokB_sound h).2
  | .node k cs, h => by
    simp only [wfB, Bool.and_eq_true] at h
    obtain ⟨p, h1, h2⟩ := List.any_eq_true.mp h.1.1
    exact .node h1 (matchB_sound _ h2) (regB_sound h.1.2) (wfLB_sound cs h.2)
theorem wfLB_sound : ∀ (l : List Green), wfLB l = true → ∀ g ∈ l, WellFormed g
  | [], _, g, hg => by cases hg
  | x :: l, h, g, hg => by
    simp only [wfLB, Bool.and_eq_true] at h
    rcases List.mem_cons.mp hg with e | hg
    · rw [e]; exact wfB_sound x h.1
    · exact wfLB_sound l h.2 g hg
end

mutual
/-- A sufficient check for `Spec.Derivation`, given one for the numbers. -/
def derivB (num : Text → Bool) : Green → Bool
  | .tok k t => tokB k t || k == .FLOAT && num t
  | .node k cs => (productions k).any (fun p => matchB (p.length + cs.length + 1) p cs) && derivLB num cs
@[inherit_doc derivB] def derivLB (num : Text → Bool) : List Green → Bool
  | [] => true
  | g :: gs => derivB num g && derivLB num gs
end

mutual
theorem derivB_sound {num : Text → Bool} (hn : ∀ t, num t = true → IsFloat t ∧ ¬ IsInt t) : ∀ (g : Green), derivB num g = true → Derivation g
  | .tok k t, h => by
    simp only [derivB, Bool.or_eq_true, Bool.and_eq_true, beq_iff_eq] at h
    rcases h with h | ⟨rfl, h⟩
    · exact .tok (tokB_sound h).1 (.inr (tokB_sound h).2)
    · exact .tok (hn t h) (.inl rfl)
  | .node k cs, h => by
    simp only [derivB, Bool.and_eq_true] at h
    obtain ⟨p, h1, h2⟩ := List.any_eq_true.mp h.1
    exact .node h1 (matchB_sound _ h2) (derivLB_sound hn cs h.2)
theorem derivLB_sound {num : Text → Bool} (hn : ∀ t, num t = true → IsFloat t ∧ ¬ IsInt t) : ∀ (l : List Green), derivLB num l = true → ∀ g ∈ l, Derivation g
  | [], _, g, hg => by cases hg
  | x :: l, h, g, hg => by
    simp only [derivLB, Bool.and_eq_true] at h
    rcases List.mem_cons.mp hg with e | hg
    · rw [e]; exact derivB_sound hn x h.1
    · exact derivLB_sound hn l h.2 g hg
end

/-- The text begins with no character of a word or string. -/
def apartB : Text → Bool
  | [] => true
  | c :: _ => !idCharsWasm.contains c && !(c == '"')

theorem apartB_sound {t : Text} (h : apartB t = true) : Apart t := by
  rintro c r rfl
  simp only [apartB, Bool.and_eq_true, Bool.not_eq_true', beq_eq_false_iff_ne] at h
  exact ⟨fun hc => (by rw [List.contains_iff_mem.mpr hc] at h; cases h.1), h.2⟩

theorem mem_takeWhile {f : Char → Bool} {c : Char} : ∀ {t : Text}, c ∈ t.takeWhile f → f c = true
  | [], h => by cases h
  | d :: t, h => by
    rw [List.takeWhile_cons] at h
    split at h
    · rename_i hd
      rcases List.mem_cons.mp h with rfl | h
      · exact hd
      · exact mem_takeWhile h
    · cases h

/-- The tokens of a text without block comments and without escapes in strings. -/
def lexB : Nat → Text → Option (List Text)
  | 0, _ => none
  | _ + 1, [] => some []
  | n + 1, c :: t =>
    if blanks.contains c then lexB n t
    else if c == '(' then if t.head? == some ';' then none else (lexB n t).map (['('] :: ·)
    else if c == ')' then (lexB n t).map ([')'] :: ·)
    else if c == ';' then
      match t with
      | ';' :: t =>
        let r := t.takeWhile fun c => !(c == '\n' || c == '\r')
        let t' := t.dropWhile fun c => !(c == '\n' || c == '\r')
        if t'.isEmpty || t'.head? == some '\n' then lexB n t' else none
      | _ => none
    else if c == '"' then
      let r := t.takeWhile fun c => !(c == '"')
      match t.dropWhile fun c => !(c == '"') with
      | '"' :: t' => if stringB (c :: (r ++ ['"'])) && apartB t' then (lexB n t').map ((c :: (r ++ ['"'])) :: ·) else none
      | _ => none
    else
      let w := (c :: t).takeWhile fun c => idCharsWasm.contains c
      let t' := (c :: t).dropWhile fun c => idCharsWasm.contains c
      if w.isEmpty || !apartB t' then none else (lexB n t').map (w :: ·)

theorem lexB_sound : ∀ (n : Nat) {t : Text} {l : List Text}, lexB n t = some l → Lexes t l
  | 0, _, _, h => by cases h
  | n + 1, [], l, h => by cases h; exact .nil
  | n + 1, c :: t, l, h => by
    unfold lexB at h
    split at h
    · rename_i hb
      exact .blank c (List.contains_iff_mem.mp hb) (lexB_sound n h)
    split at h
    · rename_i hc
      cases (beq_iff_eq.mp hc)
      split at h
      · cases h
      · rename_i hh
        obtain ⟨l', h1, rfl⟩ := Option.map_eq_some_iff.mp h
        refine .lpar (fun ⟨r, e⟩ => hh ?_) (lexB_sound n h1)
        subst e; rfl
    split at h
    · rename_i hc
      cases (beq_iff_eq.mp hc)
      obtain ⟨l', h1, rfl⟩ := Option.map_eq_some_iff.mp h
      exact .rpar (lexB_sound n h1)
    split at h
    · rename_i hc
      cases (beq_iff_eq.mp hc)
      split at h
      · rename_i t
        simp only at h
        split at h
        · rename_i he
          have hl := lexB_sound n h
          have := Lexes.line (t.takeWhile fun c => !(c == '\n' || c == '\r')) (t := t.dropWhile fun c => !(c == '\n' || c == '\r'))
            (fun hm => by simpa using mem_takeWhile hm) (fun hm => by simpa using mem_takeWhile hm) ?_ hl
          · rwa [List.takeWhile_append_dropWhile] at this
          · simp only [Bool.or_eq_true, List.isEmpty_iff, beq_iff_eq] at he
            rcases he with he | he
            · exact .inl he
            · obtain ⟨r, e⟩ := List.head?_eq_some_iff.mp he
              exact .inr (.inl ⟨r, e.symm⟩)
        · cases h
      · cases h
    split at h
    · rename_i hc
      cases (beq_iff_eq.mp hc)
      simp only at h
      split at h
      · rename_i t' e
        split at h
        · rename_i hh
          rw [Bool.and_eq_true] at hh
          obtain ⟨l', h1, rfl⟩ := Option.map_eq_some_iff.mp h
          have := Lexes.str _ (stringB_sound hh.1) (apartB_sound hh.2) (lexB_sound n h1)
          rw [List.cons_append, List.append_assoc, List.singleton_append, ← e, List.takeWhile_append_dropWhile] at this
          exact this
        · cases h
      · cases h
    · simp only at h
      split at h
      · cases h
      · rename_i hh
        simp only [Bool.or_eq_true, not_or, Bool.not_eq_true, Bool.not_eq_false', List.isEmpty_eq_false_iff] at hh
        obtain ⟨l', h1, rfl⟩ := Option.map_eq_some_iff.mp h
        have := Lexes.word _ hh.1 (fun c hm => List.contains_iff_mem.mp (mem_takeWhile hm)) (apartB_sound hh.2) (lexB_sound n h1)
        rwa [List.takeWhile_append_dropWhile] at this

/-! ### Texts of programs -/

/-- A token as the lexical grammar knows them. -/
def Lexeme (w : Text) : Prop := w = ['('] ∨ w = [')'] ∨ ClosedString w ∨ w ≠ [] ∧ ∀ c ∈ w, c ∈ idCharsWasm

theorem lexeme_tok {k : Kind} {t : Text} (h1 : TokenShape k t) (h2 : TokenFine k t) : Lexeme t := by
  have word : ∀ l : List Text, t ∈ l → (l.all fun w => !w.isEmpty && w.all fun c => idCharsWasm.contains c) = true → Lexeme t := by
    intro l hl h
    have := List.all_eq_true.mp h t hl
    simp only [Bool.and_eq_true, Bool.not_eq_true', List.isEmpty_eq_false_iff, List.all_eq_true, List.contains_iff_mem] at this
    exact .inr (.inr (.inr this))
  cases k <;> try exact h1.elim
  case WHITESPACE => exact h2.elim
  case LINE_COMMENT => exact h2.elim
  case BLOCK_COMMENT => exact h2.elim
  case ERROR => exact h2.elim
  case L_PAREN => exact .inl h1
  case R_PAREN => exact .inr (.inl h1)
  case KEYWORD => exact word keywords h1 (by decide)
  case STRING => exact .inr (.inr (.inl h2))
  case NUM_TYPE => exact word _ h1 (by decide)
  case VEC_TYPE => exact word [_] (List.mem_singleton.mpr h1) (by decide)
  case REF_TYPE => exact word _ h1 (by decide)
  case HEAP_TYPE => exact word _ h1 (by decide)
  case SHARE => exact word _ h1 (by decide)
  case INSTR_NAME => exact .inr (.inr (.inr ⟨by obtain ⟨_, _, rfl, _⟩ := h1; simp, word_wasm h1⟩))
  case IDENT => exact .inr (.inr (.inr ⟨by obtain ⟨_, rfl, _⟩ := h1; simp, ident_wasm h1⟩))
  case INT => exact .inr (.inr (.inr ⟨by obtain ⟨_, _, rfl, _⟩ := int_start h1; simp, int_wasm h1⟩))
  case UNSIGNED_INT => exact .inr (.inr (.inr ⟨by obtain ⟨_, _, rfl, _⟩ := unsigned_head h1; simp, unsigned_wasm h1⟩))
  case FLOAT => exact .inr (.inr (.inr ⟨by obtain ⟨_, _, rfl, _⟩ := float_start h1.1; simp, float_wasm h1.1⟩))
  case MEM_ARG => exact .inr (.inr (.inr ⟨by obtain ⟨_, rfl | rfl, _⟩ := h1 <;> simp, memArg_wasm h1⟩))

theorem lexemes_wf {g : Green} (h : WellFormed g) : ∀ w ∈ lexemes g, Lexeme w := by
  induction h with
  | tok h1 h2 =>
    intro w hw
    rw [wf_lex (.tok h1 h2), List.mem_singleton] at hw
    exact hw ▸ lexeme_tok h1 h2
  | node _ _ _ _ ih =>
    intro w hw
    rw [lexemes_kids] at hw
    obtain ⟨c, hc, hw⟩ := List.mem_flatMap.mp hw
    exact ih c hc w hw

theorem apart_space {t : Text} : Apart (' ' :: t) := by
  rintro c r e
  cases e
  decide

theorem lexes_spaced : ∀ {ws : List Text}, (∀ w ∈ ws, Lexeme w) → Lexes (ws.flatMap (· ++ [' '])) ws
  | [], _ => .nil
  | w :: ws, h => by
    have ih := Lexes.blank ' ' (by decide) (lexes_spaced fun w hw => h w (.tail _ hw))
    rw [List.flatMap_cons, List.append_assoc, List.singleton_append]
    rcases h w (.head _) with rfl | rfl | hs | ⟨h1, h2⟩
    · refine .lpar ?_ ih
      rintro ⟨r, e⟩
      cases e
    · exact .rpar ih
    · exact .str w hs apart_space ih
    · exact .word w h1 h2 apart_space ih

/-- Every program has a text. -/
theorem program_text {g : Green} (h : Program g) : ∃ src, Lexes src (lexemes g) := ⟨_, lexes_spaced (lexemes_wf h.2)⟩

end Verif
