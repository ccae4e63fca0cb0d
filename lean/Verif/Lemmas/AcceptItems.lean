import Verif.Lemmas.AcceptLook
import Verif.Lemmas.FormatKinds
/-!
Helper lemmas: what comes next (`Look`), and parsers that accept the items of a production when something of a given list
comes after them (`Impl`).
-/
namespace Verif
open P Spec

/-- Evaluates a check. -/
macro "chk" : tactic => `(tactic| first | rfl | decide)

/-- What the next tokens are. -/
inductive Look where
  | close | openW (w : Text) | openI | ident | num | str | word (w : Text) | name | other | eof
  deriving DecidableEq

namespace Look

def holds : Look → List Text → Prop
  | close, ws => ∃ r, ws = [')'] :: r
  | openW w, ws => ∃ r, ws = ['('] :: w :: r
  | openI, ws => ∃ w r, ws = ['('] :: w :: r ∧ InstrWord w
  | ident, ws => ∃ w r, ws = w :: r ∧ IsIdent w
  | num, ws => ∃ w r, ws = w :: r ∧ IsUnsigned w
  | str, ws => ∃ w r, ws = w :: r ∧ ClosedString w
  | word w, ws => ∃ r, ws = w :: r
  | name, ws => ∃ w r, ws = w :: r ∧ InstrWord w
  | other, ws => ∃ c w r, ws = (c :: w) :: r ∧ c ≠ '$' ∧ ∀ x ∈ c :: w, x ∈ idCharsWasm
  | eof, ws => ws = []

def fine : Look → Bool
  | openW w | word w => reservedWords.contains w
  | _ => true

/-- The characters it may begin with. -/
def chars : Look → List Char
  | close => [')']
  | openW _ | openI => ['(']
  | ident => ['$']
  | num => digits
  | str => ['"']
  | word _ | name => lowers
  | other => idCharsWasm.filter fun c => !(c == '$')
  | eof => []

end Look

/-- A word, decidable. -/
def wordB : Text → Bool
  | [] => false
  | c :: r => lowers.contains c && r.all fun c => idChars.contains c

theorem wordB_isWord {w : Text} (h : wordB w = true) : IsWord w := by
  cases w with
  | nil => cases h
  | cons c r =>
    simp only [wordB, Bool.and_eq_true, List.contains_iff_mem, List.all_eq_true] at h
    exact ⟨c, r, rfl, h.1, h.2⟩

theorem reserved_word {w : Text} (h : w ∈ reservedWords) : IsWord w := by
  have : ∀ w ∈ reservedWords, wordB w = true := by decide
  exact wordB_isWord (this w h)

theorem keyword_reserved {w : Text} (h : w ∈ keywords) : w ∈ reservedWords := List.mem_append_left _ h

theorem ident_wasm {w : Text} (h : IsIdent w) : ∀ c ∈ w, c ∈ idCharsWasm := by
  obtain ⟨r, rfl, _, h2⟩ := h
  intro c hc
  rcases List.mem_cons.mp hc with rfl | hc
  · decide
  · exact idChars_wasm (h2 c hc)

theorem hex_wasm {c : Char} (h : c ∈ hexDigits) : c ∈ idCharsWasm := by
  have : ∀ c ∈ hexDigits, c ∈ idCharsWasm := by decide
  exact this c h

theorem digit_wasm {c : Char} (h : c ∈ digits) : c ∈ idCharsWasm := by
  have : ∀ c ∈ digits, c ∈ idCharsWasm := by decide
  exact this c h

theorem unsigned_wasm {w : Text} (h : IsUnsigned w) : ∀ c ∈ w, c ∈ idCharsWasm := by
  intro c hc
  rcases h with ⟨h, r, rfl, h1, h2, _⟩ | ⟨_, rfl, h, r, rfl, h1, h2, _⟩
  · rcases List.mem_cons.mp hc with rfl | hc
    · exact digit_wasm h1
    · rcases h2 c hc with h | rfl
      · exact digit_wasm h
      · decide
  · simp only [List.mem_cons] at hc
    rcases hc with rfl | rfl | rfl | hc
    · decide
    · decide
    · exact hex_wasm h1
    · rcases h2 c hc with h | rfl
      · exact hex_wasm h
      · decide

theorem unsigned_head {w : Text} (h : IsUnsigned w) : ∃ c r, w = c :: r ∧ c ∈ digits := by
  rcases h with ⟨h, r, rfl, h1, _⟩ | ⟨r, rfl, _⟩
  · exact ⟨h, r, rfl, h1⟩
  · exact ⟨_, _, rfl, by decide⟩

/-- The first character. -/
theorem Look.head {a : Look} {t : Text} {ws : List Text} (h : Rdy t ws) (ha : a.holds ws) (hf : a.fine = true) :
    ∀ c x, t = c :: x → c ∈ a.chars := by
  intro c x he
  have hword : ∀ {w r}, IsWord w → ws = w :: r → c ∈ lowers := by
    rintro w r hw rfl
    obtain ⟨t', rfl, _⟩ := h.at_word (word_wasm hw)
    obtain ⟨y, z, rfl, h1, _⟩ := hw
    cases he
    exact h1
  cases a with
  | close =>
    obtain ⟨r, rfl⟩ := ha
    obtain ⟨t', rfl, _⟩ := h.at_rpar
    cases he; exact .head _
  | openW w =>
    obtain ⟨r, rfl⟩ := ha
    obtain ⟨t', rfl, _⟩ := h.at_lpar
    cases he; exact .head _
  | openI =>
    obtain ⟨w, r, rfl, _⟩ := ha
    obtain ⟨t', rfl, _⟩ := h.at_lpar
    cases he; exact .head _
  | ident =>
    obtain ⟨w, r, rfl, hw⟩ := ha
    obtain ⟨t', rfl, _⟩ := h.at_word (ident_wasm hw)
    obtain ⟨r, rfl, _⟩ := hw
    cases he; exact .head _
  | num =>
    obtain ⟨w, r, rfl, hw⟩ := ha
    obtain ⟨t', rfl, _⟩ := h.at_word (unsigned_wasm hw)
    obtain ⟨y, z, rfl, h1⟩ := unsigned_head hw
    cases he; exact h1
  | str =>
    obtain ⟨w, r, rfl, hw⟩ := ha
    obtain ⟨t', rfl, _⟩ := h.at_str hw
    obtain ⟨b, hb, rfl⟩ := hw
    cases he; exact .head _
  | word w =>
    obtain ⟨r, rfl⟩ := ha
    exact hword (reserved_word (List.contains_iff_mem.mp hf)) rfl
  | name =>
    obtain ⟨w, r, rfl, hw⟩ := ha
    exact hword hw.1 rfl
  | other =>
    obtain ⟨d, w, r, rfl, h1, h2⟩ := ha
    obtain ⟨t', rfl, _⟩ := h.at_word h2
    cases he
    exact List.mem_filter.mpr ⟨h2 _ (.head _), by simpa using h1⟩
  | eof =>
    cases (show ws = [] from ha)
    rw [h.at_nil] at he
    cases he

/-- One of these comes next. -/
def Ok (F : List Look) (ws : List Text) : Prop := ∃ a ∈ F, a.fine = true ∧ a.holds ws

/-- The parser refuses whatever of the list comes next. -/
def RejF (m : Bool) (p : P α) (F : List Look) : Prop := ∀ ws, Ok F ws → Rej m p ws

section
variable {m : Bool} {p q : G} {F : List Look}

theorem rejF_tp (h : RejF true p F) : RejF m (tp dbg p) F := fun ws hw => rej_tp (h ws hw)
theorem rejF_node {k : Kind} (h : RejF m p F) : RejF m (nodeP k p) F := fun ws hw => rej_node (h ws hw)
theorem rejF_context {x : P α} {s : Msg} (h : RejF m x F) : RejF m (P.context s x) F := fun ws hw => rej_context (h ws hw)
theorem rejF_seq {ps : List G} (h : RejF m p F) : RejF m (seq (p :: ps)) F := fun ws hw => rej_seq (h ws hw)
theorem rejF_alt_nil : RejF m (alt ([] : List (P α))) F := fun ws hw => rej_alt_nil rfl
theorem rejF_alt {x : P α} {ps : List (P α)} (h1 : RejF m x F) (h2 : RejF m (alt ps) F) : RejF m (alt (x :: ps)) F :=
  fun ws hw => rej_alt (h1 ws hw) (h2 ws hw)
theorem rejF_many1 (h : RejF m p F) : RejF m (many1 dbg p) F := fun ws hw => rej_many1 (h ws hw)
theorem rejF_weak {x : P α} (h : RejF false x F) : RejF m x F := fun ws hw => (h ws hw).weak

theorem rejF_mono {x : P α} {F' : List Look} (h : RejF m x F') (hs : (F.all fun a => F'.contains a) = true) : RejF m x F := by
  rintro ws ⟨a, ha, h2⟩
  exact h ws ⟨a, List.contains_iff_mem.mp (List.all_eq_true.mp hs a ha), h2⟩

/-- Where `retry` gives up. -/
def stopsB (al : List Text) : Look → Bool
  | .close | .eof => true
  | .openW w => al.contains w
  | _ => false

theorem stops_of {al : List Text} {ws : List Text} (h : Ok F ws) (hs : F.all (stopsB al) = true) : Stops al ws := by
  obtain ⟨a, ha, hf, hh⟩ := h
  have hb := List.all_eq_true.mp hs a ha
  cases a with
  | close => exact .inr (.inl hh)
  | eof => exact .inl hh
  | openW w =>
    obtain ⟨r, rfl⟩ := hh
    exact .inr (.inr ⟨w, r, rfl, List.contains_iff_mem.mp hb, reserved_word (List.contains_iff_mem.mp hf)⟩)
  | _ => cases hb

theorem rejF_retryOnce {al : List Text} (h : RejF true p F) (hs : F.all (stopsB al) = true) : RejF m (retryOnce dbg p al) F :=
  fun ws hw => rej_retryOnce (h ws hw) (stops_of hw hs)
theorem rejF_retry {al : List Text} (h : RejF true p F) (hs : F.all (stopsB al) = true) : RejF m (retry dbg p al) F :=
  fun ws hw => rej_retry (h ws hw) (stops_of hw hs)

/-- Refusing by the first character. -/
theorem rejF_head {x : P α} (f : Char → Bool) (hp : ∀ t, (∀ c r, t = c :: r → f c = false) → Refuses x t)
    (hF : (F.all fun a => a.chars.all fun c => !f c) = true) : RejF true x F := by
  rintro ws ⟨a, ha, hf, hh⟩ t ht
  refine hp t fun c r he => ?_
  have h1 := Look.head ht hh hf c r he
  have h2 := List.all_eq_true.mp (List.all_eq_true.mp hF a ha) c h1
  simpa using h2

theorem lit_refuses1 {c : Char} (t : Text) (h : ∀ d r, t = d :: r → (d == c) = false) : Refuses (lit [c]) t := by
  refine refuses_lit ?_
  rintro ⟨x, rfl⟩
  have := h c x rfl
  simp at this

theorem rejF_lParen (hF : (F.all fun a => a.chars.all fun c => !(c == '(')) = true) : RejF true lParen F :=
  rejF_context fun ws hw t ht => refuses_tokP (rejF_head (· == '(') lit_refuses1 hF ws hw t ht)

theorem rejF_ident (hF : (F.all fun a => a.chars.all fun c => !(c == '$')) = true) : RejF true ident F :=
  rejF_head (· == '$') (fun t h => refuses_tokP (refuses_context (refuses_take (refuses_bind (lit_refuses1 t h))))) hF

theorem rejF_string (hF : (F.all fun a => a.chars.all fun c => !(c == '"')) = true) : RejF true string F :=
  rejF_head (· == '"') (fun t h => refuses_tokP (refuses_context (refuses_take (refuses_bind (lit_refuses1 t h))))) hF

theorem refuses_unsigned {t : Text} (h : ∀ c r, t = c :: r → isDigit c = false) : Refuses unsignedIntImpl t := by
  refine refuses_verify' (refuses_take (refuses_bind2 (gives_opt_none (refuses_lit ?_)) ?_))
  · rintro ⟨x, rfl⟩
    exact absurd (h _ _ rfl) (by decide)
  · exact refuses_take (refuses_bind (refuses_oneOf h))

theorem rejF_uint (hF : (F.all fun a => a.chars.all fun c => !isDigit c) = true) : RejF true unsignedInt F :=
  rejF_head isDigit (fun _ h => refuses_tokP (refuses_unsigned h)) hF

/-- The next token is not one of these words. -/
def notWord (S : List Text) : Look → Bool
  | .word w => !S.contains w
  | .other => false
  | _ => true

/-- Refusing by the next word. -/
theorem rejF_word {β : Type} {f : Text → Option β} (S : List Text) (hS : ∀ w, w ∉ S → f w = none) (hR : (S.all fun w => reservedWords.contains w) = true)
    (hF : F.all (notWord S) = true) : RejF true (verifyMap f Verif.word) F := by
  rintro ws ⟨a, ha, hf, hh⟩ t ht
  have hw : ∀ {w r}, ws = w :: r → IsWord w → w ∉ S → Refuses (verifyMap f Verif.word) t := by
    rintro w r rfl h1 h2
    obtain ⟨t', rfl, h3, _⟩ := Rdy.at_word ht (word_wasm h1)
    exact refuses_verifyMap (gives_word h1 h3) (hS w h2)
  have hl : (∀ c ∈ a.chars, isLower c = false) → Refuses (verifyMap f Verif.word) t := fun h =>
    refuses_verifyMap' (refuses_word fun c r he => h c (Look.head ht hh hf c r he))
  cases a with
  | word w =>
    obtain ⟨r, rfl⟩ := hh
    exact hw rfl (reserved_word (List.contains_iff_mem.mp hf)) (by simpa [notWord] using List.all_eq_true.mp hF _ ha)
  | other => cases (List.all_eq_true.mp hF _ ha)
  | name =>
    obtain ⟨w, r, rfl, h1⟩ := hh
    exact hw rfl h1.1 fun h2 => h1.2.1 (List.contains_iff_mem.mp (List.all_eq_true.mp hR w h2))
  | num =>
    refine hl ?_
    show ∀ c ∈ digits, isLower c = false
    decide
  | _ => refine hl (by simp [Look.chars]; try decide)

theorem rejF_keyword {kw : Text} (hk : reservedWords.contains kw = true) (hF : F.all (notWord [kw]) = true) :
    RejF true (keyword kw) F := by
  refine rejF_context fun ws hw t ht => refuses_tokP (rejF_word [kw] ?_ (by simpa using hk) hF ws hw t ht)
  intro w h
  simp only [List.mem_singleton] at h
  simp [h]

/-- Refusing by the word after the parenthesis. -/
theorem rejF_paren {kw : Text} {ps : List G} (hk : reservedWords.contains kw = true) (hF : (F.all fun a => a != .openW kw) = true) :
    RejF true (seq (lParen :: tp dbg (keyword kw) :: ps)) F := by
  rintro ws ⟨a, ha, hf, hh⟩
  have hopen : ∀ {w r}, ws = ['('] :: w :: r → IsWord w → w ≠ kw → Rej true (seq (lParen :: tp dbg (keyword kw) :: ps)) ws := by
    rintro w r rfl h1 h2
    refine rej_seq2 (gs := [.tok .L_PAREN ['(']]) (ws := w :: r) acc_lParen (rej_seq (rej_tp ?_))
    intro t ht
    obtain ⟨t', rfl, h3, _⟩ := Rdy.at_word ht (word_wasm h1)
    exact refuses_context (refuses_tokP (refuses_verify (gives_word h1 h3) (by simpa using h2)))
  have hne : a ≠ .openW kw := by simpa using List.all_eq_true.mp hF a ha
  cases a with
  | openW w =>
    obtain ⟨r, rfl⟩ := hh
    exact hopen rfl (reserved_word (List.contains_iff_mem.mp hf)) (by rintro rfl; exact hne rfl)
  | openI =>
    obtain ⟨w, r, rfl, h1⟩ := hh
    refine hopen rfl h1.1 ?_
    rintro rfl
    exact h1.2.1 (List.contains_iff_mem.mp hk)
  | close => exact rej_seq (rejF_lParen (F := [.close]) (by decide) ws ⟨_, .head _, hf, hh⟩)
  | ident => exact rej_seq (rejF_lParen (F := [.ident]) (by decide) ws ⟨_, .head _, hf, hh⟩)
  | num => exact rej_seq (rejF_lParen (F := [.num]) (by decide) ws ⟨_, .head _, hf, hh⟩)
  | str => exact rej_seq (rejF_lParen (F := [.str]) (by decide) ws ⟨_, .head _, hf, hh⟩)
  | word w => exact rej_seq (rejF_lParen (F := [.word w]) (by simp only [List.all_cons, List.all_nil, Look.chars, Bool.and_true]; decide) ws ⟨_, .head _, hf, hh⟩)
  | name => exact rej_seq (rejF_lParen (F := [.name]) (by decide) ws ⟨_, .head _, hf, hh⟩)
  | other => exact rej_seq (rejF_lParen (F := [.other]) (by decide) ws ⟨_, .head _, hf, hh⟩)
  | eof => exact rej_seq (rejF_lParen (F := [.eof]) (by decide) ws ⟨_, .head _, hf, hh⟩)

end

/-! ### What a construct begins with -/

/-- Well-formed, with at most so many tokens. -/
def WF (n : Nat) (g : Green) : Prop := WellFormed g ∧ ∀ k cs, g = .node k cs → (lexL cs).length ≤ n

theorem WF.mono {n n' : Nat} {g : Green} (h : WF n g) (hn : n ≤ n') : WF n' g :=
  ⟨h.1, fun k cs e => Nat.le_trans (h.2 k cs e) hn⟩

theorem lexemes_kids {k : Kind} {cs : List Green} : lexemes (.node k cs) = lexL cs := by simp [lexL, lexemes_node]

theorem len_mem {cs : List Green} {c : Green} (h : c ∈ cs) : (lexemes c).length ≤ (lexL cs).length := by
  obtain ⟨a, b, rfl⟩ := List.append_of_mem h
  simp only [lexL_append, lexL_cons, List.length_append]
  omega

theorem WF.kids {n : Nat} {k : Kind} {cs : List Green} (h : WF n (.node k cs)) : ∀ c ∈ cs, WF n c := by
  intro c hc
  cases h.1 with
  | node h1 h2 h3 h4 =>
    refine ⟨h4 c hc, fun k' cs' e => ?_⟩
    have := len_mem hc
    rw [e, lexemes_kids] at this
    exact Nat.le_trans this (h.2 _ _ rfl)

/-- The nodes in a node with a token of its own have fewer tokens. -/
theorem WF.fewer {n : Nat} {k : Kind} {cs : List Green} (h : WF (n + 1) (.node k cs)) (ht : ∃ k t, .tok k t ∈ cs ∧ lexemes (.tok k t) = [t]) :
    ∀ c ∈ cs, WF n c := by
  intro c hc
  refine ⟨(h.kids c hc).1, fun k' cs' e => ?_⟩
  subst e
  obtain ⟨k1, t1, hm, hl⟩ := ht
  have hlen := h.2 _ _ rfl
  obtain ⟨a, b, rfl⟩ := List.append_of_mem hm
  simp only [lexL_append, lexL_cons, hl, List.length_append, List.length_cons, List.length_nil] at hlen
  rcases List.mem_append.mp hc with h1 | h1
  · have := len_mem h1
    rw [lexemes_kids] at this
    omega
  · cases h1 with
    | tail _ h1 =>
      have := len_mem h1
      rw [lexemes_kids] at this
      omega

theorem WF.cases {n : Nat} {k : Kind} {cs : List Green} (h : WF n (.node k cs)) :
    ∃ p ∈ productions k, Match p cs ∧ Regular k cs := by
  cases h.1 with
  | node h1 h2 h3 h4 => exact ⟨_, h1, h2, h3⟩

theorem wf_tok {k : Kind} {t : Text} (h : WellFormed (.tok k t)) : TokenShape k t ∧ TokenFine k t := by
  cases h with
  | tok h1 h2 => exact ⟨h1, h2⟩

theorem wf_lex {k : Kind} {t : Text} (h : WellFormed (.tok k t)) : lexemes (.tok k t) = [t] := by
  refine lexemes_tok ?_
  have := (wf_tok h).2
  cases k <;> first | rfl | exact this.elim

/-- What a node of the kind begins with. -/
def firstN : Kind → List Look
  | .MODULE => [.openW t!"module"]
  | .VAL_TYPE => [.word t!"i32", .word t!"i64", .word t!"f32", .word t!"f64", .word t!"v128", .word t!"funcref", .word t!"externref"]
  | .PARAM => [.openW t!"param"]
  | .RESULT => [.openW t!"result"]
  | .FUNC_TYPE => [.openW t!"func"]
  | .LIMITS | .TABLE_TYPE | .MEMORY_TYPE => [.num]
  | .GLOBAL_TYPE => [.word t!"i32", .word t!"i64", .word t!"f32", .word t!"f64", .word t!"v128", .word t!"funcref", .word t!"externref", .openW t!"mut"]
  | .INDEX => [.ident, .num]
  | .TYPE_USE => [.openW t!"type", .openW t!"param", .openW t!"result"]
  | .LOCAL => [.openW t!"local"]
  | .MODULE_NAME | .NAME => [.str]
  | .IMPORT | .MODULE_FIELD_IMPORT => [.openW t!"import"]
  | .EXPORT | .MODULE_FIELD_EXPORT => [.openW t!"export"]
  | .IMPORT_DESC_TYPE_USE | .EXPORT_DESC_FUNC | .MODULE_FIELD_FUNC => [.openW t!"func"]
  | .IMPORT_DESC_GLOBAL_TYPE | .EXPORT_DESC_GLOBAL | .MODULE_FIELD_GLOBAL => [.openW t!"global"]
  | .IMPORT_DESC_MEMORY_TYPE | .EXPORT_DESC_MEMORY | .MEM_USE | .MODULE_FIELD_MEMORY => [.openW t!"memory"]
  | .IMPORT_DESC_TABLE_TYPE | .EXPORT_DESC_TABLE | .TABLE_USE | .MODULE_FIELD_TABLE => [.openW t!"table"]
  | .PLAIN_INSTR => [.openI, .name]
  | .BLOCK_BLOCK => [.word t!"block", .openW t!"block"]
  | .BLOCK_LOOP => [.word t!"loop", .openW t!"loop"]
  | .BLOCK_IF => [.word t!"if", .openW t!"if"]
  | .BLOCK_TYPE => [.openW t!"type", .openW t!"param", .openW t!"result"]
  | .DATA | .MODULE_FIELD_DATA => [.openW t!"data"]
  | .OFFSET => [.openW t!"offset", .openI, .name, .word t!"block", .openW t!"block", .word t!"loop", .openW t!"loop", .word t!"if", .openW t!"if"]
  | .ELEM_EXPR => [.openW t!"item", .openI, .name, .word t!"block", .openW t!"block", .word t!"loop", .openW t!"loop", .word t!"if", .openW t!"if"]
  | .ELEM | .MODULE_FIELD_ELEM => [.openW t!"elem"]
  | .ELEM_LIST => [.word t!"func", .ident, .num, .word t!"funcref", .word t!"externref"]
  | .MODULE_FIELD_START => [.openW t!"start"]
  | .MODULE_FIELD_TYPE => [.openW t!"type"]
  | _ => []

def firstT : Term → List Look
  | .tok .IDENT => [.ident]
  | .tok .UNSIGNED_INT => [.num]
  | .tok .STRING => [.str]
  | .tok .R_PAREN => [.close]
  | .tok .INSTR_NAME => [.name]
  | .tok .NUM_TYPE => [.word t!"i32", .word t!"i64", .word t!"f32", .word t!"f64"]
  | .tok .VEC_TYPE => [.word t!"v128"]
  | .tok .REF_TYPE => [.word t!"funcref", .word t!"externref"]
  | .tok .SHARE => [.word t!"shared", .word t!"unshared"]
  | .word w => [.word w]
  | .node k => firstN k
  | _ => []

/-- The terms whose beginning is known. -/
def termOk : Term → Bool
  | .word w => reservedWords.contains w
  | t => !(firstT t).isEmpty

def itemOk (i : Item) : Bool := i.terms.all termOk

/-- What begins a production. -/
def firstP : List Item → List Look
  | .one [.tok .L_PAREN] :: .one [.word w] :: _ => [.openW w]
  | .one [.tok .L_PAREN] :: .one [.tok .INSTR_NAME] :: _ => [.openI]
  | .one ts :: _ => ts.flatMap firstT
  | _ => []

/-- The first element of the production is known to begin as said. -/
def headOk : List Item → Bool
  | .one [.tok .L_PAREN] :: .one [.word w] :: _ => reservedWords.contains w
  | .one [.tok .L_PAREN] :: .one [.tok .INSTR_NAME] :: _ => true
  | .one ts :: _ => ts.all termOk
  | _ => false

def tableOk (k : Kind) : Bool :=
  (firstN k).isEmpty || (productions k).all fun p => headOk p && (firstP p).all fun a => (firstN k).contains a

theorem tableOk_all (k : Kind) : tableOk k = true := by cases k <;> decide

theorem Ok.mono {F F' : List Look} {ws : List Text} (h : Ok F ws) (hs : ∀ a ∈ F, a ∈ F') : Ok F' ws := by
  obtain ⟨a, ha, h2⟩ := h
  exact ⟨a, hs a ha, h2⟩

theorem match_cons_one {ts : List Term} {is : List Item} {l : List Green} (h : Match (.one ts :: is) l) :
    ∃ g r, l = g :: r ∧ (∃ t ∈ ts, t.is g) ∧ Match is r := by
  cases h with
  | one h1 h2 h3 => exact ⟨_, _, rfl, ⟨_, h1, h2⟩, h3⟩

theorem is_tok {k : Kind} {g : Green} (h : (Term.tok k).is g) : ∃ t, g = .tok k t := by
  cases g with
  | tok k' t => exact ⟨t, by rw [show k' = k from h]⟩
  | node => exact h.elim

theorem is_node {k : Kind} {g : Green} (h : (Term.node k).is g) : ∃ cs, g = .node k cs := by
  cases g with
  | node k' t => exact ⟨t, by rw [show k' = k from h]⟩
  | tok => exact h.elim

theorem is_word {w : Text} {g : Green} (h : (Term.word w).is g) : g = .tok .KEYWORD w := by
  cases g with
  | node => exact h.elim
  | tok k t => obtain ⟨rfl, rfl⟩ := (show k = .KEYWORD ∧ t = w from h); rfl

/-- A production begins with one of its beginnings. -/
theorem firstP_aux {p : List Item} {cs : List Green} {rest : List Text} (h2 : Match p cs) (h4 : ∀ c ∈ cs, WellFormed c)
    (ih : ∀ c ∈ cs, ∀ t : Term, t.is c → termOk t = true → ∀ rest, Ok (firstT t) (lexemes c ++ rest)) (hh : headOk p = true) :
    Ok (firstP p) (lexL cs ++ rest) := by
  unfold headOk at hh
  split at hh
  · obtain ⟨g1, r1, rfl, ⟨t1, ht1, hi1⟩, hm⟩ := match_cons_one h2
    simp only [List.mem_singleton] at ht1; subst ht1
    obtain ⟨x, rfl⟩ := is_tok hi1
    obtain ⟨g2, r2, rfl, ⟨t2, ht2, hi2⟩, hm⟩ := match_cons_one hm
    simp only [List.mem_singleton] at ht2; subst ht2
    cases is_word hi2
    have hx : x = ['('] := (wf_tok (h4 _ (.head _))).1
    subst hx
    exact ⟨.openW _, .head _, hh, lexL r2 ++ rest, by rw [lexL_cons, lexL_cons, wf_lex (h4 _ (.head _)), wf_lex (h4 _ (.tail _ (.head _)))]; rfl⟩
  · obtain ⟨g1, r1, rfl, ⟨t1, ht1, hi1⟩, hm⟩ := match_cons_one h2
    simp only [List.mem_singleton] at ht1; subst ht1
    obtain ⟨x, rfl⟩ := is_tok hi1
    obtain ⟨g2, r2, rfl, ⟨t2, ht2, hi2⟩, hm⟩ := match_cons_one hm
    simp only [List.mem_singleton] at ht2; subst ht2
    obtain ⟨y, rfl⟩ := is_tok hi2
    have hx : x = ['('] := (wf_tok (h4 _ (.head _))).1
    subst hx
    have hy : InstrWord y := (wf_tok (h4 _ (.tail _ (.head _)))).2
    exact ⟨.openI, .head _, rfl, y, lexL r2 ++ rest, by rw [lexL_cons, lexL_cons, wf_lex (h4 _ (.head _)), wf_lex (h4 _ (.tail _ (.head _)))]; rfl, hy⟩
  · rename_i ts is hn1 hn2
    obtain ⟨g1, r1, rfl, ⟨t1, ht1, hi1⟩, hm⟩ := match_cons_one h2
    have := ih g1 (.head _) t1 hi1 (List.all_eq_true.mp hh t1 ht1) (lexL r1 ++ rest)
    rw [lexL_cons, List.append_assoc]
    refine Ok.mono this fun a ha => ?_
    rw [firstP]
    · exact List.mem_flatMap.mpr ⟨t1, ht1, ha⟩
    · intro w is' hts his
      exact hn1 w is' hts his
    · intro is' hts his
      exact hn2 is' hts his
  · cases hh

/-- A construct begins with one of its beginnings. -/
theorem first_sound {g : Green} (h : WellFormed g) : ∀ t : Term, t.is g → termOk t = true → ∀ rest, Ok (firstT t) (lexemes g ++ rest) := by
  induction h with
  | @tok k x h1 h2 =>
    intro t ht hok rest
    rw [wf_lex (.tok h1 h2)]
    cases t with
    | node => exact ht.elim
    | word w =>
      obtain ⟨rfl, rfl⟩ := (show k = .KEYWORD ∧ x = w from ht)
      exact ⟨.word x, .head _, hok, rest, rfl⟩
    | tok k' =>
      cases (show k = k' from ht)
      cases k with
      | IDENT => exact ⟨.ident, .head _, rfl, x, rest, rfl, h1⟩
      | UNSIGNED_INT => exact ⟨.num, .head _, rfl, x, rest, rfl, h1⟩
      | STRING => exact ⟨.str, .head _, rfl, x, rest, rfl, h2⟩
      | R_PAREN =>
        cases (show x = [')'] from h1)
        exact ⟨.close, .head _, rfl, rest, rfl⟩
      | INSTR_NAME => exact ⟨.name, .head _, rfl, x, rest, rfl, h2⟩
      | NUM_TYPE =>
        have h1 : x ∈ [t!"i32", t!"i64", t!"f32", t!"f64"] := h1
        refine ⟨.word x, ?_, ?_, rest, rfl⟩
        · simp only [List.mem_cons, List.not_mem_nil, or_false] at h1
          rcases h1 with rfl | rfl | rfl | rfl <;> decide
        · simp only [List.mem_cons, List.not_mem_nil, or_false] at h1
          rcases h1 with rfl | rfl | rfl | rfl <;> decide
      | VEC_TYPE =>
        cases (show x = t!"v128" from h1)
        exact ⟨.word t!"v128", .head _, by decide, rest, rfl⟩
      | REF_TYPE =>
        have h1 : x ∈ [t!"funcref", t!"externref"] := h1
        simp only [List.mem_cons, List.not_mem_nil, or_false] at h1
        refine ⟨.word x, ?_, ?_, rest, rfl⟩ <;> rcases h1 with rfl | rfl <;> decide
      | SHARE =>
        have h1 : x ∈ [t!"shared", t!"unshared"] := h1
        simp only [List.mem_cons, List.not_mem_nil, or_false] at h1
        refine ⟨.word x, ?_, ?_, rest, rfl⟩ <;> rcases h1 with rfl | rfl <;> decide
      | _ => cases hok
  | @node k cs p h1 h2 h3 h4 ih =>
    intro t ht hok rest
    cases t with
    | tok => exact ht.elim
    | word => exact ht.elim
    | node k' =>
      cases (show k = k' from ht)
      have htab := tableOk_all k
      have hne : (firstN k).isEmpty = false := by
        have : (!(firstN k).isEmpty) = true := hok
        simpa using this
      rw [tableOk, hne, Bool.false_or] at htab
      have hp := List.all_eq_true.mp htab p h1
      rw [Bool.and_eq_true] at hp
      obtain ⟨hh, hs⟩ := hp
      have hs : ∀ a ∈ firstP p, a ∈ firstN k := fun a ha => List.contains_iff_mem.mp (List.all_eq_true.mp hs a ha)
      refine Ok.mono ?_ hs
      rw [lexemes_kids]
      exact firstP_aux h2 h4 ih hh

theorem firstP_sound {p : List Item} {cs : List Green} {rest : List Text} (h2 : Match p cs) (h4 : ∀ c ∈ cs, WellFormed c) (hh : headOk p = true) :
    Ok (firstP p) (lexL cs ++ rest) := firstP_aux h2 h4 (fun c hc => first_sound (h4 c hc)) hh

/-- What comes first of the items and what comes after them. -/
def firsts (F : List Look) : List Item → List Look
  | [] => F
  | .one ts :: _ => ts.flatMap firstT
  | .opt ts :: is => ts.flatMap firstT ++ firsts F is
  | .many ts :: is => ts.flatMap firstT ++ firsts F is

theorem firsts_sound {F : List Look} {rest : List Text} (hF : Ok F rest) : ∀ {is : List Item} {l : List Green}, Match is l →
    (∀ g ∈ l, WellFormed g) → is.all itemOk = true → Ok (firsts F is) (lexL l ++ rest) := by
  intro is l h
  have step : ∀ {ts : List Term} {t : Term} {g : Green} {l : List Green}, t ∈ ts → t.is g → WellFormed g → ts.all termOk = true →
      Ok (ts.flatMap firstT) (lexL (g :: l) ++ rest) := by
    intro ts t g l h1 h2 h3 h4
    rw [lexL_cons, List.append_assoc]
    exact (first_sound h3 t h2 (List.all_eq_true.mp h4 t h1) _).mono fun a ha => List.mem_flatMap.mpr ⟨t, h1, ha⟩
  induction h with
  | nil => intro _ _; exact hF
  | one h1 h2 h3 ih =>
    intro hw hok
    rw [List.all_cons, Bool.and_eq_true] at hok
    exact step h1 h2 (hw _ (.head _)) hok.1
  | skip h ih =>
    intro hw hok
    rw [List.all_cons, Bool.and_eq_true] at hok
    exact (ih hw hok.2).mono fun a ha => List.mem_append_right _ ha
  | opt h1 h2 h3 ih =>
    intro hw hok
    rw [List.all_cons, Bool.and_eq_true] at hok
    exact (step h1 h2 (hw _ (.head _)) hok.1).mono fun a ha => List.mem_append_left _ ha
  | stop h ih =>
    intro hw hok
    rw [List.all_cons, Bool.and_eq_true] at hok
    exact (ih hw hok.2).mono fun a ha => List.mem_append_right _ ha
  | more h1 h2 h3 ih =>
    intro hw hok
    rw [List.all_cons, Bool.and_eq_true] at hok
    exact (step h1 h2 (hw _ (.head _)) hok.1).mono fun a ha => List.mem_append_left _ ha

theorem not_eof {t : Term} : .eof ∉ firstT t := by
  have hN : ∀ k, (firstN k).contains .eof = false := by intro k; cases k <;> decide
  cases t with
  | tok k => cases k <;> decide
  | word w => simp [firstT]
  | node k =>
    intro h
    have h2 := List.contains_iff_mem.mpr (show Look.eof ∈ firstN k from h)
    rw [hN k] at h2
    cases h2

theorem lex_ne {g : Green} {t : Term} (h : WellFormed g) (ht : t.is g) (hok : termOk t = true) : lexemes g ≠ [] := by
  intro he
  obtain ⟨a, ha, _, hh⟩ := first_sound h t ht hok []
  rw [he] at hh
  have hne : a ≠ .eof := fun h => not_eof (h ▸ ha)
  cases a <;> simp_all [Look.holds]

/-! ### Parsers of items -/

/-- The parser accepts the items when one of `F` comes after them. -/
def Impl (n : Nat) (m : Bool) (F : List Look) (is : List Item) (q : G) : Prop :=
  ∀ l rest, Match is l → (∀ g ∈ l, WF n g) → Ok F rest → Acc m q l rest

section
variable {n : Nat} {m : Bool} {F : List Look} {is js : List Item} {p q : G} {ts : List Term}

theorem Impl.mono {F' : List Look} (h : Impl n m F' is q) (hs : (F.all fun a => F'.contains a) = true) : Impl n m F is q :=
  fun l rest hm hw hF => h l rest hm hw (hF.mono fun a ha => List.contains_iff_mem.mp (List.all_eq_true.mp hs a ha))

theorem Impl.weak (h : Impl n false F is q) : Impl n m F is q := fun l rest hm hw hF => (h l rest hm hw hF).weak

theorem Impl.nil : Impl n m F [] (seq []) := by
  intro l rest hm hw hF
  cases hm
  exact acc_seq_nil

theorem Impl.app {qs : List G} (h1 : Impl n m (firsts F js) is q) (h2 : Impl n false F js (seq qs)) (hok : js.all itemOk = true) :
    Impl n m F (is ++ js) (seq (q :: qs)) := by
  intro l rest hm hw hF
  obtain ⟨a, b, rfl, ha, hb⟩ := match_split hm
  have hwa : ∀ g ∈ a, WF n g := fun g hg => hw g (List.mem_append_left _ hg)
  have hwb : ∀ g ∈ b, WF n g := fun g hg => hw g (List.mem_append_right _ hg)
  exact acc_seq_cons (h1 a _ ha hwa (firsts_sound hF hb (fun g hg => (hwb g hg).1) hok)) (h2 b rest hb hwb hF)

/-- The first item and the rest. -/
theorem Impl.cons {i : Item} {qs : List G} (h1 : Impl n m (firsts F js) [i] q) (h2 : Impl n false F js (seq qs))
    (hok : js.all itemOk = true := by chk) : Impl n m F (i :: js) (seq (q :: qs)) := Impl.app h1 h2 hok

/-- The first two items and the rest. -/
theorem Impl.two {i i' : Item} {qs : List G} (h1 : Impl n m (firsts F js) [i, i'] q) (h2 : Impl n false F js (seq qs))
    (hok : js.all itemOk = true := by chk) : Impl n m F (i :: i' :: js) (seq (q :: qs)) := Impl.app h1 h2 hok

theorem Impl.tp (h : Impl n true F is q) : Impl n m F is (tp dbg q) := fun l rest hm hw hF => acc_tp (h l rest hm hw hF)
theorem Impl.retryOnce {al : List Text} (h : Impl n true F is q) : Impl n m F is (retryOnce dbg q al) :=
  fun l rest hm hw hF => acc_retryOnce (h l rest hm hw hF)
theorem Impl.retry {al : List Text} (h : Impl n true F is q) : Impl n m F is (retry dbg q al) :=
  fun l rest hm hw hF => acc_retry (h l rest hm hw hF)
theorem Impl.must (h : Impl n m F is q) : Impl n m F is (must q) := fun l rest hm hw hF => acc_must (h l rest hm hw hF)
theorem Impl.context {s : Msg} (h : Impl n m F is q) : Impl n m F is (P.context s q) :=
  fun l rest hm hw hF => acc_context (h l rest hm hw hF)

theorem Impl.opt (h : Impl n m F [.one ts] q) (hr : RejF m q F) : Impl n m F [.opt ts] (optG q) := by
  intro l rest hm hw hF
  cases hm with
  | skip h1 => cases h1; exact acc_optG_none (hr rest hF)
  | opt h1 h2 h3 =>
    cases h3
    exact acc_optG (h _ rest (.one h1 h2 .nil) hw hF)

theorem Impl.manyR (h : Impl n false (ts.flatMap firstT ++ F) [.one ts] q) (hr : RejF false q F) (hok : ts.all termOk = true) :
    ∀ l rest, Match [.many ts] l → (∀ g ∈ l, WF n g) → Ok F rest → AccR dbg false q l rest := by
  intro l rest hm hw hF
  induction l with
  | nil => exact accR_nil (hr rest hF)
  | cons g l ih =>
    cases hm with
    | stop h1 => cases h1
    | more h1 h2 h3 =>
      have hn : Ok (ts.flatMap firstT ++ F) (lexL l ++ rest) := by
        have := firsts_sound (F := F) hF h3 (fun x hx => (hw x (.tail _ hx)).1) (by simpa [itemOk, Item.terms] using hok)
        exact this
      refine accR_cons (gs := [g]) (h [g] _ (.one h1 h2 .nil) (by simpa using hw g (.head _)) hn) ?_ (ih h3 fun x hx => hw x (.tail _ hx))
      rw [lexL_cons, lexL_nil, List.append_nil]
      exact lex_ne (hw g (.head _)).1 h2 (List.all_eq_true.mp hok _ h1)

theorem Impl.many (h : Impl n false (ts.flatMap firstT ++ F) [.one ts] q) (hr : RejF false q F)
    (hok : ts.all termOk = true := by chk) : Impl n m F [.many ts] (many dbg q) :=
  fun l rest hm hw hF => acc_many (Impl.manyR h hr hok l rest hm hw hF).weak

theorem Impl.many1 (h : Impl n false (ts.flatMap firstT ++ F) [.one ts] q) (hr : RejF false q F)
    (hok : ts.all termOk = true := by chk) : Impl n m F [.one ts, .many ts] (many1 dbg q) := by
  intro l rest hm hw hF
  obtain ⟨g, r, rfl, ⟨t, ht, hi⟩, hm'⟩ := match_cons_one hm
  have hn : Ok (ts.flatMap firstT ++ F) (lexL r ++ rest) :=
    firsts_sound (F := F) hF hm' (fun x hx => (hw x (.tail _ hx)).1) (by simpa [itemOk, Item.terms] using hok)
  exact acc_many1 (gs := [g]) (h [g] _ (.one ht hi .nil) (by simpa using hw g (.head _)) hn).weak
    (Impl.manyR h hr hok r rest hm' (fun x hx => hw x (.tail _ hx)) hF)

theorem Impl.altL {ps : List G} (h : Impl n m F is q) : Impl n m F is (alt (q :: ps)) :=
  fun l rest hm hw hF => acc_alt_left (h l rest hm hw hF)

theorem Impl.altR {ps : List G} (hr : RejF m p (firsts F is)) (h : Impl n m F is (alt ps)) (hok : is.all itemOk = true := by chk) :
    Impl n m F is (alt (p :: ps)) :=
  fun l rest hm hw hF => acc_alt_right (hr _ (firsts_sound hF hm (fun g hg => (hw g hg).1) hok)) (h l rest hm hw hF)

theorem Impl.altP {ps : List G} (hr : RejF m p (firstP is)) (h : Impl n m F is (alt ps)) (hok : headOk is = true := by chk) :
    Impl n m F is (alt (p :: ps)) :=
  fun l rest hm hw hF => acc_alt_right (hr _ (firstP_sound hm (fun g hg => (hw g hg).1) hok)) (h l rest hm hw hF)

theorem Impl.none : Impl n m F [.one []] q := by
  intro l rest hm hw hF
  obtain ⟨g, r, rfl, ⟨t, ht, _⟩, _⟩ := match_cons_one hm
  cases ht

/-- One of several terms, each on its own. -/
theorem Impl.or {t : Term} (h1 : Impl n m F [.one [t]] q) (h2 : Impl n m F [.one ts] q) : Impl n m F [.one (t :: ts)] q := by
  intro l rest hm hw hF
  obtain ⟨g, r, rfl, ⟨t', ht, hi⟩, hm'⟩ := match_cons_one hm
  cases hm'
  rcases List.mem_cons.mp ht with rfl | ht
  · exact h1 _ rest (.one (.head _) hi .nil) hw hF
  · exact h2 _ rest (.one ht hi .nil) hw hF

theorem Impl.nodeR {k : Kind} (h : ∀ p ∈ productions k, ∀ l rest, Match p l → Regular k l → (∀ g ∈ l, WF n g) → Ok F rest → Acc m q l rest) :
    Impl n m F [oneN k] (nodeP k q) := by
  intro l rest hm hw hF
  obtain ⟨g, r, rfl, ⟨t', ht, hi⟩, hm'⟩ := match_cons_one hm
  cases hm'
  simp only [List.mem_singleton] at ht; subst ht
  obtain ⟨cs, rfl⟩ := is_node hi
  obtain ⟨p, hp, hmp, hreg⟩ := (hw _ (.head _)).cases
  exact acc_node (h p hp cs rest hmp hreg (hw _ (.head _)).kids hF)

theorem Impl.node1 {k : Kind} {a : List Item} (hp : productions k = [a]) (h : Impl n m F a q) : Impl n m F [oneN k] (nodeP k q) :=
  Impl.nodeR fun p hpp l rest hm _ hw hF => by
    rw [hp, List.mem_singleton] at hpp; subst hpp
    exact h l rest hm hw hF

theorem Impl.node2 {k : Kind} {a b : List Item} (hp : productions k = [a, b]) (h1 : Impl n m F a q) (h2 : Impl n m F b q) :
    Impl n m F [oneN k] (nodeP k q) :=
  Impl.nodeR fun p hpp l rest hm _ hw hF => by
    rw [hp] at hpp
    simp only [List.mem_cons, List.not_mem_nil, or_false] at hpp
    rcases hpp with rfl | rfl
    · exact h1 l rest hm hw hF
    · exact h2 l rest hm hw hF

theorem Impl.node3 {k : Kind} {a b c : List Item} (hp : productions k = [a, b, c]) (h1 : Impl n m F a q) (h2 : Impl n m F b q)
    (h3 : Impl n m F c q) : Impl n m F [oneN k] (nodeP k q) :=
  Impl.nodeR fun p hpp l rest hm _ hw hF => by
    rw [hp] at hpp
    simp only [List.mem_cons, List.not_mem_nil, or_false] at hpp
    rcases hpp with rfl | rfl | rfl
    · exact h1 l rest hm hw hF
    · exact h2 l rest hm hw hF
    · exact h3 l rest hm hw hF

end

end Verif
