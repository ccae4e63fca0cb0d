import Verif.Lemmas.AcceptTy
import Verif.Lemmas.FormatKinds
import Verif.Lemmas.Derive
/-!
Helper lemmas: the parser of instructions accepts every instruction of the grammar.
-/
namespace Verif
open P Spec

/-- What may come after an instruction that is not an operand. -/
def afterInstr : List Look :=
  [.close, .openI, .name, .word t!"block", .openW t!"block", .word t!"loop", .openW t!"loop", .word t!"if", .openW t!"if",
    .word t!"end", .word t!"else", .openW t!"then"]

/-- What may come after a block without a label. -/
def noLabel : List Look := afterTypeUse.erase .ident

/-- What comes after the instruction does not become part of it. -/
def After (g : Green) (rest : List Text) : Prop :=
  Ok afterInstr rest ∨ BeginsWith .L_PAREN g ∧ Ok afterTypeUse rest ∧ (Unlabelled g → Ok noLabel rest)

/-- The parser accepts the instructions of at most so many tokens. -/
structure Ins (n : Nat) (ins : G) : Prop where
  acc : ∀ g rest, WF n g → (∃ t ∈ instrTerms, t.is g) → After g rest → Acc true ins [g] rest
  rej : RejF true ins [.close, .ident, .num, .str, .eof]

section
variable {n : Nat} {m : Bool} {F : List Look} {is : List Item} {p q ins : G} {ts : List Term}

theorem Ins.low (h : Ins n ins) : Impl n true afterInstr [.one instrTerms] ins := by
  intro l rest hm hw hF
  obtain ⟨g, r, rfl, ht, hm'⟩ := match_cons_one hm
  cases hm'
  exact h.acc g rest (hw g (.head _)) ht (.inl hF)

/-! ### Looking ahead -/

/-- Choosing by the next character. -/
theorem acc_peekAny {f : Char → G} {d : Char} {gs : List Green} {rest : List Text}
    (hd : ∀ t, Rdy t (lexL gs ++ rest) → ∃ x, t = d :: x) (h : Acc true (f d) gs rest) : Acc true (P.bind (peek any) f) gs rest := by
  intro t ht
  obtain ⟨x, rfl⟩ := hd t ht
  obtain ⟨o, t4, g4, hh⟩ := h _ ht
  exact ⟨o, t4, gives_bind (gives_peek gives_any) g4, hh⟩

/-- The beginning of a word. -/
theorem begins_word {d : Char} {w : Text} {ws : List Text} (hw : ∀ c ∈ d :: w, c ∈ idCharsWasm) {t : Text} (h : Rdy t ((d :: w) :: ws)) :
    ∃ x, t = d :: x := by
  obtain ⟨t', rfl, _⟩ := h.at_word hw
  exact ⟨_, rfl⟩

/-- Refusing by the next character. -/
theorem rej_peekAny {f : Char → G} {ws : List Text} (h : ∀ t, Rdy t ws → ∀ c x, t = c :: x → Refuses (f c) t) : Rej true (P.bind (peek any) f) ws := by
  intro t ht
  cases t with
  | nil => exact refuses_bind (refuses_peek refuses_any)
  | cons c x => exact refuses_bind2 (gives_peek gives_any) (h _ ht c x rfl)

/-! ### `repeat_till` -/

theorem rejF_peekEnd {ends : List Text} (hR : (ends.all fun w => reservedWords.contains w) = true)
    (hF : F.all (notWord ends) = true) (h2 : (F.all fun a => a.chars.all fun c => !(c == ')')) = true) :
    RejF m (peekEnd dbg ends) F := by
  refine rejF_weak fun ws hw t ht => refuses_peek (refuses_void ?_)
  obtain ⟨tr, t1, g1, b1, r1, n1⟩ := gives_trivias (dbg := dbg) ht.lexes
  refine refuses_bind2 g1 (refuses_alt ?_ (refuses_alt ?_ refuses_alt_nil))
  · refine rejF_word ends ?_ hR hF ws hw t1 r1
    intro w h
    simpa using h
  · exact rejF_head (· == ')') lit_refuses1 h2 ws hw t1 r1

theorem gives_peekEnd {ends : List Text} {w t : Text} {rest : List Text} (hw : w ∈ ends) (hk : reservedWords.contains w = true)
    (ht : Lexes t (w :: rest)) : Gives (peekEnd dbg ends) t () t := by
  obtain ⟨tr, t1, g1, b1, r1, n1⟩ := gives_trivias (dbg := dbg) ht
  have hwd := reserved_word (List.contains_iff_mem.mp hk)
  obtain ⟨t2, rfl, a2, l2⟩ := r1.at_word (word_wasm hwd)
  refine gives_peek (t' := t2) (gives_void (gives_bind g1 (gives_alt_left (gives_verify (gives_word hwd a2) ?_))))
  simpa using hw

/-- Instructions up to a word. -/
theorem impl_till {ends : List Text} (h : Impl n true afterInstr [.one instrTerms] ins)
    (hR : (ends.all fun w => reservedWords.contains w) = true := by chk)
    (hE : ((ends.map Look.word).all fun a => afterInstr.contains a) = true := by chk)
    (hI : (instrTerms.flatMap firstT).all (notWord ends) = true := by chk) :
    Impl n m (ends.map .word) [instrs] (instrsTill dbg ins ends) := by
  intro l rest hm hw hF
  suffices H : ∀ t fuel, Lexes t (lexL l ++ rest) → t.length < fuel → ∃ o t', Gives (repeatTillF dbg (retryOnce dbg ins []) (peekEnd dbg ends) fuel) t (o, ()) t' ∧
      stripL o.flatten = l ∧ Lexes t' rest ∧ t'.length ≤ t.length ∧ (lexL l ≠ [] → t'.length < t.length) by
    intro t ht
    obtain ⟨o, t', g, s, r⟩ := H t (t.length + 1) ht.lexes (by omega)
    exact ⟨o.flatten, t', gives_map (fun pos errs => g pos errs), s, r⟩
  induction l with
  | nil =>
    intro t fuel ht hf
    obtain ⟨fuel, rfl⟩ : ∃ k, fuel = k + 1 := ⟨fuel - 1, by omega⟩
    obtain ⟨a, ha, _, hh⟩ := hF
    obtain ⟨w, hw', rfl⟩ := List.mem_map.mp ha
    obtain ⟨r, rfl⟩ := hh
    exact ⟨[], t, gives_repeatTill_done (gives_peekEnd hw' (List.all_eq_true.mp hR w hw') ht), rfl, ht, Nat.le_refl _, by simp [lexL]⟩
  | cons g l ih =>
    cases hm with
    | stop h1 => cases h1
    | more h1 h2 h3 =>
      intro t fuel ht hf
      obtain ⟨fuel, rfl⟩ : ∃ k, fuel = k + 1 := ⟨fuel - 1, by omega⟩
      have hn : Ok (instrTerms.flatMap firstT ++ ends.map .word) (lexL l ++ rest) :=
        firsts_sound (F := ends.map .word) hF h3 (fun x hx => (hw x (.tail _ hx)).1) (by chk)
      have hn' : Ok afterInstr (lexL l ++ rest) := hn.mono fun a ha => by
        rcases List.mem_append.mp ha with ha | ha
        · exact List.contains_iff_mem.mp (List.all_eq_true.mp (show ((instrTerms.flatMap firstT).all fun a => afterInstr.contains a) = true from by decide) a ha)
        · exact List.contains_iff_mem.mp (List.all_eq_true.mp hE a ha)
      have hfirst : Ok (instrTerms.flatMap firstT) (lexL (g :: l) ++ rest) := by
        rw [lexL_cons, List.append_assoc]
        exact (first_sound (hw g (.head _)).1 _ h2 (List.all_eq_true.mp (by decide) _ h1) _).mono fun a ha => List.mem_flatMap.mpr ⟨_, h1, ha⟩
      have ha : Acc false (retryOnce dbg ins []) [g] (lexL l ++ rest) :=
        acc_retryOnce (h [g] _ (.one h1 h2 .nil) (by simpa using hw g (.head _)) hn')
      obtain ⟨o1, t1, g1, s1, l1, n1, k1⟩ := ha t (by rw [lexL_cons, lexL_nil, List.append_nil, ← List.append_assoc, ← lexL_cons]; exact ht)
      have hlt := k1 (by rw [lexL_cons, lexL_nil, List.append_nil]; exact lex_ne (hw g (.head _)).1 h2 (List.all_eq_true.mp (by decide) _ h1))
      obtain ⟨o2, t2, g2, s2, l2, n2, k2⟩ := ih h3 (fun x hx => hw x (.tail _ hx)) t1 fuel l1 (by omega)
      refine ⟨o1 :: o2, t2, gives_repeatTill_more ?_ g1 hlt g2, by rw [List.flatten_cons, stripL_append, s1, s2]; rfl, l2, by omega, fun _ => by omega⟩
      exact rejF_peekEnd (m := false) hR hI (by chk) _ hfirst t ht

/-! ### Operands -/

theorem digit_start {d : Char} (h : d ∈ digits) : (isDigit d || d == '+' || d == '-') = true := by
  revert d
  decide

theorem int_start {w : Text} (h : IsInt w) : ∃ d r, w = d :: r ∧ (isDigit d || d == '+' || d == '-') = true := by
  rcases h with h | ⟨r, rfl | rfl, _⟩
  · obtain ⟨c, r, rfl, hc⟩ := unsigned_head h
    exact ⟨c, r, rfl, digit_start hc⟩
  · exact ⟨_, _, rfl, rfl⟩
  · exact ⟨_, _, rfl, rfl⟩

theorem float_start {w : Text} (h : IsFloat w) :
    ∃ d r, w = d :: r ∧ ((isDigit d || d == '+' || d == '-') = true ∨ d = 'i' ∨ d = 'n') := by
  obtain ⟨⟨g, m, rfl, hg, hm⟩, _⟩ := h
  rcases hg with rfl | rfl | rfl
  · rcases hm with rfl | rfl | ⟨r, rfl, _⟩ | ⟨i, f, x, rfl, hi, _⟩ | ⟨r, rfl, _⟩
    · exact ⟨_, _, rfl, .inr (.inl rfl)⟩
    · exact ⟨_, _, rfl, .inr (.inr rfl)⟩
    · exact ⟨_, _, rfl, .inr (.inr rfl)⟩
    · obtain ⟨c, r, rfl, hc, _⟩ := hi
      exact ⟨c, _, rfl, .inl (digit_start hc)⟩
    · exact ⟨_, _, rfl, .inl rfl⟩
  · exact ⟨_, _, rfl, .inl rfl⟩
  · exact ⟨_, _, rfl, .inl rfl⟩

theorem num_start {d : Char} (h : (isDigit d || d == '+' || d == '-') = true) : d ≠ '$' := by
  rintro rfl
  cases h

theorem rejAt_int {w : Text} {rest : List Text} (h : IsFloat w) (hi : ¬ IsInt w) : Rej true int (w :: rest) := by
  intro t ht
  obtain ⟨t', rfl, a, _⟩ := ht.at_word (float_wasm h)
  exact refuses_int (float_id h) a hi

/-- The single element of an operand. -/
theorem operand_kid {cs : List Green} (h : WF n (.node .OPERAND cs)) :
    ∃ c, cs = [c] ∧ WF n c ∧ Regular .OPERAND [c] ∧ ∃ t ∈ ([.tok .INT, .tok .FLOAT, .tok .STRING, .tok .IDENT, .tok .MEM_ARG, .tok .HEAP_TYPE, .node .TYPE_USE]
      ++ instrTerms : List Term), t.is c := by
  obtain ⟨p, hp, hm, hr⟩ := h.cases
  simp only [productions, List.mem_singleton] at hp
  subst hp
  obtain ⟨c, r, rfl, ht, hm'⟩ := match_cons_one hm
  cases hm'
  exact ⟨c, rfl, h.kids c (.head _), hr, ht⟩

/-- The form of a folded instruction. -/
theorem folded_first {g : Green} (h : WellFormed g) (hg : ∃ t ∈ instrTerms, t.is g) (hb : BeginsWith .L_PAREN g) (rest : List Text) :
    Ok [.openI, .openW t!"block", .openW t!"loop", .openW t!"if"] (lexemes g ++ rest) := by
  obtain ⟨k', x, r, rfl, hx⟩ := hb
  obtain ⟨t, ht, hi⟩ := hg
  cases h with
  | node h1 h2 h3 h4 =>
    rw [lexemes_kids]
    have key : ∀ p, p ∈ productions k' → Match p (x :: r) → headOk p = true →
        ((∀ a ∈ firstP p, a ∈ [Look.openI, .openW t!"block", .openW t!"loop", .openW t!"if"]) ∨ ∃ t is, p = .one [t] :: is ∧ (t = .tok .INSTR_NAME ∨ ∃ w, t = .word w)) →
        Ok [.openI, .openW t!"block", .openW t!"loop", .openW t!"if"] (lexL (x :: r) ++ rest) := by
      intro p hp hm hok hor
      rcases hor with hor | ⟨t, is, rfl, ht⟩
      · exact (firstP_sound hm h4 hok).mono hor
      · obtain ⟨g, r', e, ⟨t', ht', hi'⟩, _⟩ := match_cons_one hm
        simp only [List.mem_singleton] at ht'
        subst ht'
        cases e
        rcases ht with rfl | ⟨w, rfl⟩
        · obtain ⟨y, rfl⟩ := is_tok hi'
          cases hx
        · cases is_word hi'
          cases hx
    simp only [instrTerms, List.mem_cons, List.not_mem_nil, or_false] at ht
    rcases ht with rfl | rfl | rfl | rfl
    all_goals
      obtain ⟨cs', e⟩ := is_node hi
      cases e
      simp only [productions, List.mem_cons, List.not_mem_nil, or_false] at h1
      rcases h1 with rfl | rfl
      all_goals
        refine key _ (by simp [productions]) h2 (by chk) ?_
        first
          | exact .inl (by decide)
          | exact .inr ⟨_, _, rfl, .inl rfl⟩
          | exact .inr ⟨_, _, rfl, .inr ⟨_, rfl⟩⟩

theorem instr_kind {g : Green} (h : ∃ t ∈ instrTerms, t.is g) : ∃ k cs, g = .node k cs ∧ k ∈ instructionKinds := by
  obtain ⟨t, ht, hi⟩ := h
  simp only [instrTerms, List.mem_cons, List.not_mem_nil, or_false] at ht
  rcases ht with rfl | rfl | rfl | rfl <;> (obtain ⟨cs', rfl⟩ := is_node hi; exact ⟨_, _, rfl, by decide⟩)

/-- What the type use of an instruction begins with. -/
theorem typeUse_first {cs : List Green} (h : WellFormed (.node .TYPE_USE cs)) (hb : BeginsWith .L_PAREN (.node .TYPE_USE cs)) (rest : List Text) :
    Ok [.openW t!"type"] (lexemes (.node .TYPE_USE cs) ++ rest) := by
  obtain ⟨k', x, r, e, hx⟩ := hb
  cases e
  rw [lexemes_kids]
  cases h with
  | node h1 h2 h3 h4 =>
    simp only [productions, List.mem_cons, List.not_mem_nil, or_false] at h1
    rcases h1 with rfl | rfl | rfl
    · exact firstP_sound h2 h4 (by chk)
    all_goals
      obtain ⟨g, r', e, ⟨t', ht', hi'⟩, _⟩ := match_cons_one h2
      simp only [List.mem_singleton] at ht'
      subst ht'
      cases e
      obtain ⟨cs', rfl⟩ := is_node hi'
      cases hx

/-- What the type use of a block begins with. -/
theorem blockUse_first {cs : List Green} (h : WellFormed (.node .TYPE_USE cs)) (hb : ¬ BeginsWith .RESULT (.node .TYPE_USE cs)) (rest : List Text) :
    Ok [.openW t!"type", .openW t!"param"] (lexemes (.node .TYPE_USE cs) ++ rest) := by
  rw [lexemes_kids]
  cases h with
  | node h1 h2 h3 h4 =>
    simp only [productions, List.mem_cons, List.not_mem_nil, or_false] at h1
    rcases h1 with rfl | rfl | rfl
    · exact (firstP_sound h2 h4 (by chk)).mono (by decide)
    · exact (firstP_sound h2 h4 (by chk)).mono (by decide)
    · obtain ⟨g, r', rfl, ⟨t', ht', hi'⟩, _⟩ := match_cons_one h2
      simp only [List.mem_singleton] at ht'
      subst ht'
      obtain ⟨cs', rfl⟩ := is_node hi'
      exact absurd ⟨_, _, _, rfl, rfl⟩ hb

/-- What an operand begins with. -/
theorem operand_first {cs : List Green} (h : WF n (.node .OPERAND cs)) (rest : List Text) : Ok afterTypeUse (lexemes (.node .OPERAND cs) ++ rest) := by
  obtain ⟨c, rfl, hc, hr, t, ht, hi⟩ := operand_kid h
  rw [lexemes_kids, lexL_cons, lexL_nil, List.append_nil]
  rcases List.mem_append.mp ht with ht' | ht'
  · simp only [List.mem_cons, List.not_mem_nil, or_false] at ht'
    have htok : ∀ {k : Kind} {w : Text}, WellFormed (.tok k w) → (∃ d r, w = d :: r ∧ d ≠ '$') → (∀ c ∈ w, c ∈ idCharsWasm) →
        Ok afterTypeUse (lexemes (.tok k w) ++ rest) := by
      rintro k w hw ⟨d, r, rfl, hd⟩ hwasm
      rw [wf_lex hw]
      exact ⟨.other, by decide, rfl, d, r, _, rfl, hd, hwasm⟩
    rcases ht' with rfl | rfl | rfl | rfl | rfl | rfl | rfl
    · obtain ⟨w, rfl⟩ := is_tok hi
      have hs : IsInt w := (wf_tok hc.1).1
      obtain ⟨d, r, e, hd⟩ := int_start hs
      exact htok hc.1 ⟨d, r, e, num_start hd⟩ (int_wasm hs)
    · obtain ⟨w, rfl⟩ := is_tok hi
      have hs : IsFloat w := (wf_tok hc.1).1.1
      obtain ⟨d, r, e, hd⟩ := float_start hs
      refine htok hc.1 ⟨d, r, e, ?_⟩ (float_wasm hs)
      rcases hd with hd | rfl | rfl
      · exact num_start hd
      · decide
      · decide
    · obtain ⟨w, rfl⟩ := is_tok hi
      rw [wf_lex hc.1]
      exact ⟨.str, by decide, rfl, w, _, rfl, (wf_tok hc.1).2⟩
    · obtain ⟨w, rfl⟩ := is_tok hi
      rw [wf_lex hc.1]
      exact ⟨.ident, by decide, rfl, w, _, rfl, (wf_tok hc.1).1⟩
    · obtain ⟨w, rfl⟩ := is_tok hi
      have hs : ∃ r, (w = t!"offset=" ++ r ∨ w = t!"align=" ++ r) ∧ IsUnsigned r := (wf_tok hc.1).1
      refine htok hc.1 ?_ (memArg_wasm hs)
      obtain ⟨r, rfl | rfl, _⟩ := hs
      · exact ⟨'o', _, rfl, by decide⟩
      · exact ⟨'a', _, rfl, by decide⟩
    · obtain ⟨w, rfl⟩ := is_tok hi
      have hs : w ∈ [t!"func", t!"extern"] := (wf_tok hc.1).1
      simp only [List.mem_cons, List.not_mem_nil, or_false] at hs
      rcases hs with rfl | rfl
      · exact htok hc.1 ⟨'f', _, rfl, by decide⟩ (by decide)
      · exact htok hc.1 ⟨'e', _, rfl, by decide⟩ (by decide)
    · obtain ⟨cs', rfl⟩ := is_node hi
      exact (typeUse_first hc.1 (hr.1 _ (.head _) (.inr rfl)) rest).mono (by decide)
  · refine (folded_first hc.1 ⟨t, ht', hi⟩ (hr.1 _ (.head _) (.inl ?_)) rest).mono (by decide)
    obtain ⟨k, cs', rfl, hk⟩ := instr_kind ⟨t, ht', hi⟩
    exact hk

/-- The parser of an operand once its first character is known. -/
def operandOn (dbg : Bool) (ins : G) (b : Bool) (c : Char) : G :=
  if isDigit c || c == '+' || c == '-' then alt [int, float]
  else if c == '.' || c == 'i' || c == 'n' then float
  else if c == '"' then string
  else if c == '$' then ident
  else if c == '(' then
    P.bind (peekParenWord dbg) fun w =>
      if w == t!"type" then typeUse dbg
      else if b then ins
      else fail
  else if c == 'o' || c == 'a' then memArg
  else if c == 'f' || c == 'e' then heapType
  else fail

theorem operand_eq {b : Bool} : operand dbg ins b = P.context (.expDesc "operand") (nodeP .OPERAND (P.bind (peek any) (operandOn dbg ins b))) := rfl

theorem acc_operand {cs : List Green} {b : Bool} {rest : List Text} (hI : Ins n ins) (h : WF n (.node .OPERAND cs))
    (hb : b = false → ∀ c ∈ cs, c.kind ∉ instructionKinds) (hF : Ok afterTypeUse rest) (hu : Unlabelled (.node .OPERAND cs) → Ok noLabel rest) :
    Acc true (operand dbg ins b) [.node .OPERAND cs] rest := by
  rw [operand_eq]
  have hne := hF.ne_nil (by decide)
  obtain ⟨c, rfl, hc, hr, t, ht, hi⟩ := operand_kid h
  refine acc_context (acc_node ?_)
  have htok : ∀ {k : Kind} {w : Text} {d : Char} {r : Text}, WellFormed (.tok k w) → w = d :: r → (∀ c ∈ w, c ∈ idCharsWasm) →
      Acc true (operandOn dbg ins b d) [.tok k w] rest → Acc true (P.bind (peek any) (operandOn dbg ins b)) [.tok k w] rest := by
    rintro k w d r hw rfl hwasm ha
    refine acc_peekAny (fun t ht => ?_) ha
    rw [lexL_cons, lexL_nil, List.append_nil, wf_lex hw] at ht
    exact begins_word hwasm ht
  have hpar : ∀ {k : Kind} {cs : List Green} {w : Text} {r : List Text}, lexemes (.node k cs) ++ rest = ['('] :: w :: r → IsWord w →
      Acc true (if w == t!"type" then typeUse dbg else if b then ins else fail) [.node k cs] rest →
      Acc true (P.bind (peek any) (operandOn dbg ins b)) [.node k cs] rest := by
    intro k cs w r he hw ha
    have he' : lexL [.node k cs] ++ rest = ['('] :: w :: r := by rw [lexL_cons, lexL_nil, List.append_nil, he]
    refine acc_peekAny (d := '(') (fun t ht => ?_) (acc_peekParen he' hw ha)
    rw [he'] at ht
    obtain ⟨x, rfl, _⟩ := ht.at_lpar
    exact ⟨_, rfl⟩
  rcases List.mem_append.mp ht with ht' | ht'
  · simp only [List.mem_cons, List.not_mem_nil, or_false] at ht'
    rcases ht' with rfl | rfl | rfl | rfl | rfl | rfl | rfl
    · obtain ⟨w, rfl⟩ := is_tok hi
      have hs : IsInt w := (wf_tok hc.1).1
      obtain ⟨d, r, e, hd⟩ := int_start hs
      refine htok hc.1 e (int_wasm hs) ?_
      rw [operandOn, if_pos hd]
      exact acc_alt_left (acc_int hs hne)
    · obtain ⟨w, rfl⟩ := is_tok hi
      have hs : IsFloat w := (wf_tok hc.1).1.1
      have hsep : Separated w := (wf_tok hc.1).2
      obtain ⟨d, r, e, hd⟩ := float_start hs
      refine htok hc.1 e (float_wasm hs) ?_
      rcases hd with hd | rfl | rfl
      · rw [operandOn, if_pos hd]
        refine acc_alt_right ?_ (acc_alt_left (acc_float hs hsep hne))
        rw [lexL_cons, lexL_nil, List.append_nil, wf_lex hc.1]
        exact rejAt_int hs (wf_tok hc.1).1.2
      · exact acc_float hs hsep hne
      · exact acc_float hs hsep hne
    · obtain ⟨w, rfl⟩ := is_tok hi
      have hs : ClosedString w := (wf_tok hc.1).2
      refine acc_peekAny (d := '"') (fun t ht => ?_) (acc_string hs)
      rw [lexL_cons, lexL_nil, List.append_nil, wf_lex hc.1] at ht
      obtain ⟨t', rfl, _⟩ := ht.at_str hs
      obtain ⟨x, _, rfl⟩ := hs
      exact ⟨_, rfl⟩
    · obtain ⟨w, rfl⟩ := is_tok hi
      have hs : IsIdent w := (wf_tok hc.1).1
      obtain ⟨r, e, hr'⟩ := hs
      exact htok (d := '$') hc.1 e (ident_wasm (wf_tok hc.1).1) (acc_ident (wf_tok hc.1).1)
    · obtain ⟨w, rfl⟩ := is_tok hi
      have hs : ∃ r, (w = t!"offset=" ++ r ∨ w = t!"align=" ++ r) ∧ IsUnsigned r := (wf_tok hc.1).1
      have ha := acc_memArg hs hne
      obtain ⟨r, e | e, _⟩ := hs
      · exact htok (d := 'o') hc.1 e (memArg_wasm (wf_tok hc.1).1) ha
      · exact htok (d := 'a') hc.1 e (memArg_wasm (wf_tok hc.1).1) ha
    · obtain ⟨w, rfl⟩ := is_tok hi
      have hs : w ∈ [t!"func", t!"extern"] := (wf_tok hc.1).1
      have ha := acc_heapType (rest := rest) hs
      simp only [List.mem_cons, List.not_mem_nil, or_false] at hs
      rcases hs with e | e
      · exact htok (d := 'f') hc.1 e (by subst e; decide) ha
      · exact htok (d := 'e') hc.1 e (by subst e; decide) ha
    · obtain ⟨cs', rfl⟩ := is_node hi
      obtain ⟨a, ha, _, hh⟩ := typeUse_first hc.1 (hr.1 _ (.head _) (.inr rfl)) rest
      rw [List.mem_singleton] at ha; subst ha
      obtain ⟨r, hh⟩ := hh
      refine hpar hh (reserved_word (by decide)) ?_
      exact impl_typeUse [.node .TYPE_USE cs'] rest (.one (.head _) rfl .nil) (by simpa using hc) hF
  · obtain ⟨k, cs', rfl, hk⟩ := instr_kind ⟨t, ht', hi⟩
    have hfold := hr.1 _ (.head _) (.inl hk)
    have hbt : b = true := by
      cases b with
      | true => rfl
      | false => exact absurd hk (hb rfl _ (.head _))
    subst hbt
    have hacc := hI.acc _ rest hc ⟨t, ht', hi⟩ (.inr ⟨hfold, hF, fun hx => hu (.inside (.inl rfl) hx)⟩)
    obtain ⟨a, ha, hf, hh⟩ := folded_first hc.1 ⟨t, ht', hi⟩ hfold rest
    have : ∃ w r, lexemes (.node k cs') ++ rest = ['('] :: w :: r ∧ IsWord w ∧ w ≠ t!"type" := by
      simp only [List.mem_cons, List.not_mem_nil, or_false] at ha
      rcases ha with rfl | rfl | rfl | rfl
      · obtain ⟨w, r, he, hw⟩ := hh
        exact ⟨w, r, he, hw.1, fun e => hw.2.1 (by rw [e]; decide)⟩
      all_goals
        obtain ⟨r, he⟩ := hh
        exact ⟨_, r, he, reserved_word (by decide), by decide⟩
    obtain ⟨w, r, he, hw, hne'⟩ := this
    refine hpar he hw ?_
    rw [if_neg (by simpa using hne'), if_pos rfl]
    exact hacc

theorem rejF_operandT (hI : RejF true ins F) (hF : (F.all fun a => a == .close) = true) : RejF true (operand dbg ins b) F := by
  rw [operand_eq]
  refine rejF_context (rejF_node fun ws hw => rej_peekAny fun t ht c x e => ?_)
  obtain ⟨a, ha, _, hh⟩ := hw
  have := List.all_eq_true.mp hF a ha
  have : a = .close := by simpa using this
  subst this
  obtain ⟨r, rfl⟩ := hh
  obtain ⟨t', rfl, _⟩ := ht.at_rpar
  cases e
  exact refuses_fail

theorem prefix_word {u w t : Text} (hu : ∀ c ∈ u, c ∈ idCharsWasm) (ht : Apart t) (h : u <+: w ++ t) : u <+: w := by
  induction u generalizing w with
  | nil => exact List.nil_prefix
  | cons c u ih =>
    cases w with
    | nil =>
      obtain ⟨v, hv⟩ := h
      exact absurd (hu c (.head _)) (ht c (u ++ v) (by simpa using hv.symm)).1
    | cons d w =>
      rw [List.cons_append, List.cons_prefix_cons] at h
      rw [List.cons_prefix_cons]
      exact ⟨h.1, ih (fun x hx => hu x (.tail _ hx)) h.2⟩

theorem refuses_memArg {w t : Text} (ht : Apart t) (h2 : ¬ t!"offset=" <+: w) (h3 : ¬ t!"align=" <+: w) : Refuses memArg (w ++ t) := by
  refine refuses_tokP (refuses_take ?_)
  have hstep : ∀ {u v : Text}, u ++ v = w ++ t → ¬ (u ++ ['=']) <+: w → (∀ c ∈ u ++ ['='], c ∈ idCharsWasm) → ¬ ['='] <+: v := by
    rintro u v he hn hu ⟨y, rfl⟩
    exact hn (prefix_word hu ht ⟨y, by simpa using he⟩)
  by_cases ho : t!"offset" <+: w ++ t
  · obtain ⟨v, hv⟩ := ho
    rw [← hv]
    exact refuses_bind2 (gives_alt_left (gives_lit _)) (refuses_bind (refuses_lit (hstep hv h2 (by decide))))
  · by_cases hl : t!"align" <+: w ++ t
    · obtain ⟨v, hv⟩ := hl
      refine refuses_bind2 (gives_alt_right (refuses_lit ho) (gives_alt_left (?_ : Gives _ (w ++ t) t!"align" v))) (refuses_bind (refuses_lit (hstep hv h3 (by decide))))
      rw [← hv]
      exact gives_lit _
    · exact refuses_bind (refuses_alt (refuses_lit ho) (refuses_alt (refuses_lit hl) refuses_alt_nil))

theorem word_id {w : Text} (h : IsWord w) : ∀ c ∈ w, isIdChar c = true := by
  obtain ⟨c, r, rfl, h1, h2⟩ := h
  intro x hx
  cases hx with
  | head => exact List.all_eq_true.mp (show (lowers.all isIdChar) = true by decide) _ h1
  | tail _ hx => exact mem_isIdChar (h2 x hx)

/-- An instruction name is not an operand. -/
theorem refuses_operandWord {w t : Text} (hw : IsWord w) (ht : Apart t) (h1 : ¬ IsFloat w) (h2 : ¬ t!"offset=" <+: w) (h3 : ¬ t!"align=" <+: w)
    (h4 : w ∉ [t!"func", t!"extern"]) {c : Char} {x : Text} (e : w ++ t = c :: x) : Refuses (operandOn dbg ins b c) (w ++ t) := by
  have hc : c ∈ lowers := by
    obtain ⟨d, r, rfl, hd, _⟩ := hw
    cases e
    exact hd
  have hc' : (isDigit c || c == '+' || c == '-' || c == '"' || c == '$' || c == '(') = false := by
    have := List.all_eq_true.mp (show (lowers.all fun c => !(isDigit c || c == '+' || c == '-' || c == '"' || c == '$' || c == '(')) = true by decide) c hc
    revert this
    cases (isDigit c || c == '+' || c == '-' || c == '"' || c == '$' || c == '(') <;> simp
  simp only [Bool.or_eq_false_iff] at hc'
  obtain ⟨⟨⟨⟨⟨a1, a2⟩, a3⟩, a4⟩, a5⟩, a6⟩ := hc'
  simp only [operandOn, a1, a2, a3, a4, a5, a6, Bool.or_self, Bool.false_eq_true, if_false]
  split
  · exact refuses_float (word_id hw) ht h1
  · split
    · exact refuses_memArg ht h2 h3
    · split
      · refine refuses_verifyMap (gives_word hw ht) ?_
        simp only [List.mem_cons, List.not_mem_nil, or_false, not_or] at h4
        simp [h4.1, h4.2]
      · exact refuses_fail

theorem float_block {w : Text} (hw : w ∈ [t!"block", t!"loop", t!"if", t!"end", t!"else"]) : ¬ IsFloat w := by
  intro h
  have hlen : w.length ≠ 2 ∨ w.head? ≠ some 'i' := by
    obtain ⟨⟨g, m, rfl, hg, hm⟩, _⟩ := h
    rcases hg with rfl | rfl | rfl
    · rcases hm with rfl | rfl | ⟨r, rfl, _⟩ | ⟨i, f, x, rfl, hi, _⟩ | ⟨r, rfl, _⟩
      · exact .inl (by decide)
      · exact .inl (by decide)
      · exact .inr (by simp)
      · obtain ⟨c, r, rfl, hc, _⟩ := hi
        refine .inr ?_
        simp only [List.nil_append, List.cons_append, List.head?_cons, ne_eq, Option.some.injEq]
        rintro rfl
        revert hc
        decide
      · exact .inr (by simp)
    · exact .inr (by simp)
    · exact .inr (by simp)
  obtain ⟨d, r, e, hd⟩ := float_start h
  simp only [List.mem_cons, List.not_mem_nil, or_false] at hw
  rcases hw with rfl | rfl | rfl | rfl | rfl
  · cases e; rcases hd with hd | hd | hd <;> revert hd <;> decide
  · cases e; rcases hd with hd | hd | hd <;> revert hd <;> decide
  · revert hlen; decide
  · cases e; rcases hd with hd | hd | hd <;> revert hd <;> decide
  · cases e; rcases hd with hd | hd | hd <;> revert hd <;> decide

theorem rejF_operandF : RejF true (operand dbg ins false) afterInstr := by
  rw [operand_eq]
  refine rejF_context (rejF_node fun ws hw => rej_peekAny fun t ht c x e => ?_)
  obtain ⟨a, ha, hf, hh⟩ := hw
  have hopen : ∀ {w r}, ws = ['('] :: w :: r → IsWord w → w ≠ t!"type" → Refuses (operandOn dbg ins false c) t := by
    rintro w r rfl h1 h2
    obtain ⟨t1, rfl, l1⟩ := ht.at_lpar
    cases e
    obtain ⟨tr, t2, g2, b2, r2, n2⟩ := gives_trivias (dbg := dbg) l1
    obtain ⟨t3, rfl, a3, l3⟩ := r2.at_word (word_wasm h1)
    refine refuses_bind2 (gives_peek (gives_bind (gives_lit1 '(') (gives_bind g2 (gives_word h1 a3)))) ?_
    rw [if_neg (by simpa using h2), if_neg (by simp)]
    exact refuses_fail
  have hword : ∀ {w r}, ws = w :: r → w ∈ [t!"block", t!"loop", t!"if", t!"end", t!"else"] → Refuses (operandOn dbg ins false c) t := by
    rintro w r rfl h1
    have hwd : IsWord w := reserved_word (List.contains_iff_mem.mp (List.all_eq_true.mp
      (show ([t!"block", t!"loop", t!"if", t!"end", t!"else"].all fun w => reservedWords.contains w) = true by decide) w h1))
    obtain ⟨t', rfl, a', _⟩ := ht.at_word (word_wasm hwd)
    refine refuses_operandWord hwd a' (float_block h1) ?_ ?_ ?_ e <;> (simp only [List.mem_cons, List.not_mem_nil, or_false] at h1; rcases h1 with rfl | rfl | rfl | rfl | rfl <;> decide)
  simp only [afterInstr, List.mem_cons, List.not_mem_nil, or_false] at ha
  rcases ha with rfl | rfl | rfl | rfl | rfl | rfl | rfl | rfl | rfl | rfl | rfl | rfl
  · obtain ⟨r, rfl⟩ := hh
    obtain ⟨t', rfl, _⟩ := ht.at_rpar
    cases e
    exact refuses_fail
  · obtain ⟨w, r, he, hw⟩ := hh
    exact hopen he hw.1 fun e => hw.2.1 (by rw [e]; decide)
  · obtain ⟨w, r, rfl, hw⟩ := hh
    obtain ⟨t', rfl, a', _⟩ := ht.at_word (word_wasm hw.1)
    refine refuses_operandWord hw.1 a' hw.2.2.1 hw.2.2.2.1 hw.2.2.2.2 (fun hm => hw.2.1 ?_) e
    simp only [List.mem_cons, List.not_mem_nil, or_false] at hm
    rcases hm with rfl | rfl <;> decide
  all_goals obtain ⟨r, he⟩ := hh
  all_goals first | exact hword he (by decide) | exact hopen he (reserved_word (by decide)) (by decide)

/-- Beginning with something that is not an identifier. -/
theorem ok_noIdent {ws : List Text} (h : Ok afterTypeUse ws) (hn : ∀ t r, ws ≠ ('$' :: t) :: r) : Ok noLabel ws := by
  obtain ⟨a, ha, hf, hh⟩ := h
  refine ⟨a, ?_, hf, hh⟩
  by_cases e : a = .ident
  · subst e
    obtain ⟨w, r, rfl, t, rfl, _⟩ := hh
    exact absurd rfl (hn t r)
  · exact (List.mem_erase_of_ne e).mpr ha

/-- The operands of an instruction. -/
theorem acc_operands {b : Bool} (hI : Ins n ins) (hr : RejF false q F) (hF : (F.all fun a => noLabel.contains a) = true)
    (hq : ∀ o rest, Acc true (operand dbg ins b) [o] rest → Acc false q [o] rest) {rest : List Text} (hrest : Ok F rest) :
    ∀ os : List Green, (∀ o ∈ os, WF n o) → (∀ o ∈ os, ∃ cs, o = .node .OPERAND cs) →
      (b = false → ∀ o c, .node .OPERAND o ∈ os → c ∈ o → c.kind ∉ instructionKinds) →
      (∀ a x y c, os = a ++ x :: y :: c → Unlabelled x → ¬ StartsWithIdent y) → AccR dbg false q os rest
  | [], _, _, _, _ => accR_nil (hr rest hrest)
  | o :: os, hw, hk, hb, hu => by
    obtain ⟨cs, rfl⟩ := hk o (.head _)
    have hnl : Ok noLabel rest := hrest.mono fun a ha => List.contains_iff_mem.mp (List.all_eq_true.mp hF a ha)
    have hsub : ∀ {ws}, Ok noLabel ws → Ok afterTypeUse ws := fun h => h.mono fun a ha => List.mem_of_mem_erase ha
    have hlab : Ok afterTypeUse (lexL os ++ rest) ∧ (Unlabelled (.node .OPERAND cs) → Ok noLabel (lexL os ++ rest)) := by
      cases os with
      | nil => exact ⟨hsub hnl, fun _ => hnl⟩
      | cons y c =>
        obtain ⟨cs', rfl⟩ := hk y (.tail _ (.head _))
        have h1 := operand_first (hw _ (.tail _ (.head _))) (lexL c ++ rest)
        rw [lexL_cons, List.append_assoc]
        refine ⟨h1, fun hx => ok_noIdent h1 fun t r e => ?_⟩
        refine hu [] _ _ c rfl hx ?_
        cases hl : lexemes (.node .OPERAND cs') with
        | nil =>
          obtain ⟨a, ha, _, hh⟩ := operand_first (hw _ (.tail _ (.head _))) []
          rw [hl] at hh
          revert ha hh
          cases a <;> simp [Look.holds, afterTypeUse]
        | cons w ws =>
          rw [hl, List.cons_append] at e
          cases e
          exact ⟨t, ws, hl⟩
    refine accR_cons (gs := [.node .OPERAND cs]) (hq _ _ (acc_operand hI (hw _ (.head _)) (fun e c hc => hb e cs c (.head _) hc) hlab.1 hlab.2)) ?_
      (acc_operands hI hr hF hq hrest os (fun o ho => hw o (.tail _ ho)) (fun o ho => hk o (.tail _ ho)) (fun e o c ho => hb e o c (.tail _ ho))
        fun a x y c e => hu (.node .OPERAND cs :: a) x y c (by rw [e]; rfl))
    rw [lexL_cons, lexL_nil, List.append_nil]
    intro hl
    obtain ⟨a, ha, _, hh⟩ := operand_first (hw _ (.head _)) []
    rw [hl] at hh
    revert ha hh
    cases a <;> simp [Look.holds, afterTypeUse]

/-- The list of elements of a kind. -/
theorem match_manyN {k : Kind} {l : List Green} (h : Match [manyN k] l) : ∀ g ∈ l, ∃ cs, g = .node k cs := by
  induction l with
  | nil => intro g hg; cases hg
  | cons x l ih =>
    cases h with
    | stop h1 => cases h1
    | more h1 h2 h3 =>
      intro g hg
      cases hg with
      | head =>
        simp only [List.mem_singleton] at h1
        subst h1
        exact is_node h2
      | tail _ hg => exact ih h3 g hg

theorem acc_plain {cs : List Green} {rest : List Text} (hI : Ins n ins) (h : WF (n + 1) (.node .PLAIN_INSTR cs)) (ha : After (.node .PLAIN_INSTR cs) rest) :
    Acc true (plainInstr dbg ins) [.node .PLAIN_INSTR cs] rest := by
  have e : plainInstr dbg ins = nodeP .PLAIN_INSTR (alt [seq [lParen, tp dbg instrName, many dbg (retryOnce dbg (operand dbg ins true) []), rParen dbg],
      seq [instrName, many dbg (tp dbg (operand dbg ins false))]]) := alt_node (ps := [_, _]) (by simp)
  rw [e]
  refine acc_node ?_
  obtain ⟨p, hp, hm, hr⟩ := h.cases
  simp only [productions, List.mem_cons, List.not_mem_nil, or_false] at hp
  rcases hp with rfl | rfl
  · obtain ⟨g1, r1, rfl, ⟨t1, ht1, hi1⟩, hmA⟩ := match_cons_one hm
    simp only [List.mem_singleton] at ht1; subst ht1
    obtain ⟨x, rfl⟩ := is_tok hi1
    obtain ⟨g2, r2, rfl, ⟨t2, ht2, hi2⟩, hmB⟩ := match_cons_one hmA
    simp only [List.mem_singleton] at ht2; subst ht2
    obtain ⟨y, rfl⟩ := is_tok hi2
    obtain ⟨os, l, rfl, hm1, hm2⟩ := match_split (is := [manyN .OPERAND]) hmB
    obtain ⟨g3, r3, rfl, ⟨t3, ht3, hi3⟩, hm3⟩ := match_cons_one hm2
    cases hm3
    simp only [List.mem_singleton] at ht3; subst ht3
    obtain ⟨z, rfl⟩ := is_tok hi3
    have hx : x = ['('] := (wf_tok (h.kids _ (.head _)).1).1
    have hz : z = [')'] := (wf_tok (h.kids (.tok .R_PAREN z) (by simp)).1).1
    subst hx hz
    have hf := h.fewer ⟨_, _, .head _, rfl⟩
    refine acc_alt_left ?_
    refine acc_seq_cons (gs := [.tok .L_PAREN ['(']]) acc_lParen ?_
    refine acc_seq_cons (gs := [.tok .INSTR_NAME y]) (acc_tp (acc_instrName (wf_tok (h.kids _ (.tail _ (.head _))).1).2)) ?_
    refine acc_seq_cons (gs := os) (hs := [.tok .R_PAREN [')']]) (acc_many ?_) (acc_seq_cons (gs := [.tok .R_PAREN [')']]) acc_rParen acc_seq_nil)
    refine acc_operands (b := true) (F := [.close]) hI (rejF_retryOnce (rejF_operandT (rejF_mono hI.rej (by decide)) (by decide)) (by decide)) (by decide)
      (fun o rest ha => acc_retryOnce ha) ⟨.close, .head _, rfl, _, rfl⟩ os (fun o ho => hf o (by simp [ho])) (match_manyN hm1) (by simp) ?_
    intro a u v c e
    exact hr.2 (.tok .L_PAREN ['('] :: .tok .INSTR_NAME y :: a) u v (c ++ [.tok .R_PAREN [')']]) (by simp [e])
  · obtain ⟨g2, r2, rfl, ⟨t2, ht2, hi2⟩, hmB⟩ := match_cons_one hm
    simp only [List.mem_singleton] at ht2; subst ht2
    obtain ⟨y, rfl⟩ := is_tok hi2
    have hy : InstrWord y := (wf_tok (h.kids _ (.head _)).1).2
    have hF : Ok afterInstr rest := by
      rcases ha with ha | ⟨⟨k', x, r, e, hx⟩, _⟩
      · exact ha
      · cases e; cases hx
    have hf := h.fewer ⟨_, _, .head _, wf_lex (h.kids _ (.head _)).1⟩
    refine acc_alt_right ?_ (acc_alt_left ?_)
    · rw [lexL_cons, wf_lex (h.kids _ (.head _)).1]
      exact rejF_seq (rejF_lParen (F := [.name]) (by chk)) _ ⟨.name, .head _, rfl, y, _, rfl, hy⟩
    · refine acc_seq_cons (gs := [.tok .INSTR_NAME y]) (acc_instrName hy) ?_
      rw [← List.append_nil r2]
      refine acc_seq_cons (gs := r2) (hs := []) (acc_many ?_) acc_seq_nil
      refine acc_operands (b := false) (F := afterInstr) hI (rejF_tp rejF_operandF) (by decide)
        (fun o rest ha => acc_tp ha) hF r2 (fun o ho => hf o (by simp [ho])) (match_manyN hmB) ?_ ?_
      · intro _ o c ho hc
        exact hr.1 y r2 rfl o c ho hc
      · intro a u v c e
        exact hr.2 (.tok .INSTR_NAME y :: a) u v c (by simp [e])

/-! ### Blocks -/

theorem impl_blockType : Impl n true afterTypeUse [oneN .BLOCK_TYPE] (blockType dbg) := by
  rw [show blockType dbg = nodeP .BLOCK_TYPE (alt [result dbg, typeUse dbg]) from alt_node (ps := [_, _]) (by simp)]
  refine Impl.nodeR fun p hp l rest hm hr hw hF => ?_
  simp only [productions, List.mem_singleton] at hp
  subst hp
  obtain ⟨g, r, rfl, ⟨t, ht, hi⟩, hm'⟩ := match_cons_one hm
  cases hm'
  simp only [List.mem_cons, List.not_mem_nil, or_false] at ht
  rcases ht with rfl | rfl
  · exact acc_alt_left (impl_result [g] rest (.one (.head _) hi .nil) hw hF)
  · obtain ⟨cs, rfl⟩ := is_node hi
    refine acc_alt_right ?_ (acc_alt_left (impl_typeUse _ rest (.one (.head _) hi .nil) hw hF))
    rw [lexL_cons, lexL_nil, List.append_nil]
    exact rejF_result (by chk) _ (blockUse_first (hw _ (.head _)).1 (hr.1 _ (.head _) rfl) rest)

theorem rejF_blockType (h1 : (F.all fun a => a != .openW t!"type") = true := by chk) (h2 : (F.all fun a => a != .openW t!"param") = true := by chk)
    (h3 : (F.all fun a => a != .openW t!"result") = true := by chk) : RejF true (blockType dbg) F :=
  rejF_alt (rejF_node (rejF_result h3)) (rejF_alt (rejF_node (rejF_typeUse h1 h2 h3)) rejF_alt_nil)

theorem impl_optType (h1 : (F.all fun a => a != .openW t!"type") = true := by chk) (h2 : (F.all fun a => a != .openW t!"param") = true := by chk)
    (h3 : (F.all fun a => a != .openW t!"result") = true := by chk) (h4 : (F.all fun a => afterTypeUse.contains a) = true := by chk) :
    Impl n m F [optN .BLOCK_TYPE] (optG (tp dbg (blockType dbg))) :=
  Impl.opt (Impl.tp (impl_blockType.mono h4)) (rejF_tp (rejF_blockType h1 h2 h3))

theorem impl_instrs (hI : Ins n ins) : Impl n m [.close] [instrs] (many dbg (retry dbg ins [])) :=
  Impl.many (Impl.retry (hI.low.mono (by chk))) (rejF_retry (rejF_mono hI.rej (by chk)) (by chk))

/-- A form that ends in an identifier. -/
theorem Impl.some {t : Term} (h : Impl n m F [.one [t]] q) : Impl n m F [.one [t]] (optG q) := fun l rest hm hw hF => acc_optG (h l rest hm hw hF)

/-- The last element may be missing. -/
theorem match_last {ts : List Term} {l : List Green} (h : Match (is ++ [.opt ts]) l) : (Match is l) ∨ Match (is ++ [.one ts]) l := by
  obtain ⟨a, b, rfl, h1, h2⟩ := match_split h
  cases h2 with
  | skip h2 => cases h2; exact .inl (by simpa using h1)
  | opt h2 h3 h4 => cases h4; exact .inr (match_append h1 (.one h2 h3 .nil))

end

end Verif
