import Verif.Lemmas.Keywords
import Verif.Lemmas.Root
/-!
C58: completion offers the instructions and keywords of the language.

Full statement: where the name of an instruction is being typed, the names offered as instructions are those of the
instructions of WebAssembly 2.0, each once.  It is false of the code, whose list lacks many and has one that does not exist.
-/
namespace Verif
open Spec

/-- The names offered as instructions. -/
def operatorNames (items : List CmpItem) : List Text := (items.filter fun i => i.kind == .operator).map CmpItem.label

/-- The full statement of C58. -/
def C58_statement : Prop :=
  ∀ (dbg : Bool) (src : Text) (g : Green) (errs : List Err) (dropped : Text), parse dbg src = .tree g errs dropped →
    ∀ (u v : Text), src = u ++ v → ∀ (t : Tok) (p : Red), BeingTyped (Red.root g) (bytes u) t → t.parent = some p →
    p.kind = .PLAIN_INSTR → t.kind = .INSTR_NAME →
    ∃ items, completion src (Red.root g) (posAfter u) = .done (some items) ∧ (operatorNames items).Nodup ∧
      ∀ n, n ∈ operatorNames items ↔ IsInstrName n

/-- The items of the contexts of an instruction. -/
def instrItems : CmpCtx → List CmpItem
  | .instr => instrNames.map fun n => ⟨n, .operator, none, none, none⟩
  | .imExport => keywordItems [t!"import", t!"export"]
  | .paramResult => keywordItems [t!"param", t!"result"]
  | .keyword k => keywordItems [k]
  | _ => []

/-- The names offered as instructions are those of the list of instructions. -/
theorem operatorNames_ctx (pre post : List CmpCtx) (h1 : ∀ c ∈ pre, c = .imExport ∨ c = .paramResult ∨ ∃ k, c = .keyword k)
    (h2 : ∀ c ∈ post, c = .imExport ∨ c = .paramResult ∨ ∃ k, c = .keyword k) :
    operatorNames ((pre ++ .instr :: post).flatMap instrItems) = instrNames := by
  have e2 : ∀ more : List CmpCtx, (∀ c ∈ more, c = .imExport ∨ c = .paramResult ∨ ∃ k, c = .keyword k) →
      (more.flatMap instrItems).filter (fun i => i.kind == .operator) = [] := by
    intro more h
    apply filter_nil
    intro i hi
    obtain ⟨c, hc, hi⟩ := List.mem_flatMap.mp hi
    rcases h c hc with rfl | rfl | ⟨k, rfl⟩ <;>
      (simp only [instrItems, keywordItems] at hi; obtain ⟨_, _, rfl⟩ := List.mem_map.mp hi; rfl)
  have e1 : (instrItems .instr).filter (fun i => i.kind == .operator) = instrItems .instr := by
    rw [List.filter_eq_self]
    intro i hi
    obtain ⟨n, _, rfl⟩ := List.mem_map.mp hi
    rfl
  unfold operatorNames
  rw [List.flatMap_append, List.flatMap_cons, List.filter_append, List.filter_append, List.map_append, List.map_append,
    e2 pre h1, e2 post h2, e1]
  unfold instrItems
  rw [List.map_map]
  simp [Function.comp_def]

/-- What is offered at the name of an instruction: the list of instructions, and keywords. -/
theorem instr_offers {g : Green} (hs : Solid g) {u v : Text} {t : Tok} {p : Red} (ht : BeingTyped (Red.root g) (bytes u) t)
    (hp : t.parent = some p) (hk : p.kind = .PLAIN_INSTR) (htk : t.kind = .INSTR_NAME) :
    ∃ items, completion (u ++ v) (Red.root g) (posAfter u) = .done (some items) ∧ operatorNames items = instrNames := by
  have hc : ∃ more, cmpCtx t = .instr :: more ∧ ∀ c ∈ more, c = .imExport ∨ c = .paramResult ∨ ∃ k, c = .keyword k := by
    unfold cmpCtx
    rw [hp]
    simp only [hk]
    unfold instrCtx
    rw [if_pos (by rw [htk]; rfl)]
    refine ⟨_, rfl, ?_⟩
    cases p.parent with
    | none => simp
    | some q =>
      simp only
      split
      · split
        · intro c hc
          simp only [headCtx, List.mem_cons, List.not_mem_nil, or_false] at hc
          rcases hc with rfl | rfl | rfl | rfl <;> simp
        · simp
      · split
        · intro c hc
          rcases List.mem_cons.mp hc with rfl | hc
          · simp
          · split at hc
            · simp only [List.mem_cons, List.not_mem_nil, or_false] at hc
              subst hc; simp
            · split at hc
              · cases hc
              · simp only [List.mem_cons, List.not_mem_nil, or_false] at hc
                subst hc; simp
            · cases hc
        · simp
      · simp
  obtain ⟨more, h1, h2⟩ := hc
  refine ⟨_, completion_all hs ht h1 (by simp) instrItems ?_, ?_⟩
  · intro c hc
    rcases List.mem_cons.mp hc with rfl | hc
    · rfl
    · rcases h2 c hc with rfl | rfl | ⟨k, rfl⟩ <;> rfl
  · exact operatorNames_ctx [] more (by simp) h2

/-- What the list of instructions contains. -/
theorem names_offered {items : List CmpItem} (h2 : operatorNames items = instrNames) :
    (operatorNames items).Nodup ∧
      (∀ n ∈ operatorNames items, IsInstrName n ∨ n = t!"i8x16.mul") ∧
      (∀ n ∈ controlNames, n ∈ operatorNames items) ∧
      ∀ e ∈ instrTable, IsBasic e ∨ IsLaneAccess e → e.name ∈ operatorNames items := by
  rw [h2]
  refine ⟨?_, ?_, ?_, ?_⟩
  · decide +kernel
  · have : instrNames.all (fun n => decide (IsInstrName n ∨ n = t!"i8x16.mul")) = true := by decide +kernel
    intro n hn
    exact of_decide_eq_true (List.all_eq_true.mp this n hn)
  · decide +kernel
  · have : instrTable.all (fun e => (match e.opcode with
        | [b] => !(decide (b < 0xC0) && decide (b ≠ 0x25) && decide (b ≠ 0x26))
        | [0xFD, b] => !(b == 0 || decide (11 ≤ b) && decide (b ≤ 34))
        | _ => true) || decide (e.name ∈ instrNames)) = true := by decide +kernel
    intro e he hb
    have := List.all_eq_true.mp this e he
    rcases hb with ⟨b, h1, h2, h3, h4⟩ | ⟨b, h1, h2⟩
    · rw [h1] at this
      simpa [h2, h3, h4] using this
    · rw [h1] at this
      rcases h2 with rfl | h2
      · simpa using this
      · simpa [h2.1, h2.2] using this

/-- Where the name of an instruction is being typed, every name offered as an instruction is one, but for `i8x16.mul`; all control
instructions, all other instructions of WebAssembly 1.0, and the instructions that move vectors and their lanes are offered; each
once.  Missing for the full claim: the other instructions of WebAssembly 2.0 (`C58_missing`), and `i8x16.mul` (`C58_unknown`). -/
theorem C58_partial (dbg : Bool) (src : Text) (g : Green) (errs : List Err) (dropped : Text) (h : parse dbg src = .tree g errs dropped)
    (u v : Text) (hu : src = u ++ v) (t : Tok) (p : Red) (ht : BeingTyped (Red.root g) (bytes u) t) (hp : t.parent = some p)
    (hk : p.kind = .PLAIN_INSTR) (htk : t.kind = .INSTR_NAME) :
    ∃ items, completion src (Red.root g) (posAfter u) = .done (some items) ∧ (operatorNames items).Nodup ∧
      (∀ n ∈ operatorNames items, IsInstrName n ∨ n = t!"i8x16.mul") ∧
      (∀ n ∈ controlNames, n ∈ operatorNames items) ∧
      ∀ e ∈ instrTable, IsBasic e ∨ IsLaneAccess e → e.name ∈ operatorNames items := by
  subst hu
  obtain ⟨items, h1, h2⟩ := instr_offers (parse_solid h) (v := v) ht hp hk htk
  exact ⟨items, h1, names_offered h2⟩

/-- The code violates C58: `memory.copy` is not offered for `(drop)`; nor are many other instructions. -/
theorem C58_missing : ¬ C58_statement := by
  intro h
  have : (parse false t!"(module (func (drop)))").test (fun g _ _ =>
      typedTest (Red.root g) (bytes t!"(module (func (dr") fun t x _ => x.kind == .PLAIN_INSTR && t.kind == .INSTR_NAME) = true := by
    decide +kernel
  obtain ⟨g, e, dr, h1, h2⟩ := ParseOut.of_test this
  obtain ⟨t, x, p, ht, hx, _, hc⟩ := typedTest_spec h2
  simp only [Bool.and_eq_true, beq_iff_eq] at hc
  obtain ⟨items, h3, _, h4⟩ := h _ _ _ _ _ h1 t!"(module (func (dr" t!"op)))" rfl t x ht hx hc.1 hc.2
  obtain ⟨items', h5, h6⟩ := instr_offers (parse_solid h1) (v := t!"op)))") ht hx hc.1 hc.2
  have h5 : completion t!"(module (func (drop)))" (Red.root g) (posAfter t!"(module (func (dr") = .done (some items') := h5
  rw [h5] at h3; cases h3
  have := (h4 t!"memory.copy").mpr (by decide +kernel)
  rw [h6] at this
  revert this
  decide +kernel

/-- The code violates C58: `i8x16.mul` is offered, which is no instruction. -/
theorem C58_unknown : ¬ C58_statement := by
  intro h
  have : (parse false t!"(module (func (drop)))").test (fun g _ _ =>
      typedTest (Red.root g) (bytes t!"(module (func (dr") fun t x _ => x.kind == .PLAIN_INSTR && t.kind == .INSTR_NAME) = true := by
    decide +kernel
  obtain ⟨g, e, dr, h1, h2⟩ := ParseOut.of_test this
  obtain ⟨t, x, p, ht, hx, _, hc⟩ := typedTest_spec h2
  simp only [Bool.and_eq_true, beq_iff_eq] at hc
  obtain ⟨items, h3, _, h4⟩ := h _ _ _ _ _ h1 t!"(module (func (dr" t!"op)))" rfl t x ht hx hc.1 hc.2
  obtain ⟨items', h5, h6⟩ := instr_offers (parse_solid h1) (v := t!"op)))") ht hx hc.1 hc.2
  have h5 : completion t!"(module (func (drop)))" (Red.root g) (posAfter t!"(module (func (dr") = .done (some items') := h5
  rw [h5] at h3; cases h3
  have := (h4 t!"i8x16.mul").mp (by rw [h6]; decide +kernel)
  revert this
  decide +kernel

/-- Where value types are expected, and no name is being typed, the value types are offered, each once and with its description. -/
theorem C58_valueTypes (dbg : Bool) (src : Text) (g : Green) (errs : List Err) (dropped : Text) (h : parse dbg src = .tree g errs dropped)
    (u v : Text) (hu : src = u ++ v) (t : Tok) (p : Red) (ht : BeingTyped (Red.root g) (bytes u) t) (hp : t.parent = some p)
    (hk : holdsTypes p.kind = true) (hn : t.text.head? ≠ some '$') :
    ∃ items, completion src (Red.root g) (posAfter u) = .done (some items) ∧ (items.map CmpItem.label).Nodup ∧
      (∀ n, n ∈ items.map CmpItem.label ↔ n ∈ typeNames) ∧
      ∀ i ∈ items, i.insertText = none ∧ ∃ doc, i.doc = some doc ∧ '`' :: i.label ++ t!"`" <:+: doc := by
  subst hu
  have hc : cmpCtx t = [.valType] := by
    unfold cmpCtx
    rw [hp]
    simp only
    revert hk
    cases p.kind <;> simp [holdsTypes, hn]
  refine ⟨_, completion_one (parse_solid h) ht hc rfl, by decide +kernel, ?_, ?_⟩
  · have : (typeItems valueTypes).map CmpItem.label = typeNames := by decide +kernel
    intro n
    rw [this]
  · have : (typeItems valueTypes).all (fun i => i.insertText == none && i.doc.any fun d => decide ('`' :: i.label ++ t!"`" <:+: d)) = true := by
      decide +kernel
    intro i hi
    have := List.all_eq_true.mp this i hi
    simp only [Bool.and_eq_true, beq_iff_eq, Option.any_eq_true, decide_eq_true_eq] at this
    obtain ⟨h1, d, h2, h3⟩ := this
    exact ⟨h1, d, h2, h3⟩

/-- The items of the contexts after an opening parenthesis. -/
def parenItems : CmpCtx → List CmpItem
  | .moduleField => keywordItems moduleFields
  | .imExport => keywordItems [t!"import", t!"export"]
  | .paramResult => keywordItems [t!"param", t!"result"]
  | .portDesc => keywordItems portDesc
  | .keyword k => keywordItems [k]
  | _ => []

/-- The full statement for keywords: at the head of a part of a node, where the grammar allows only keywords, these are
offered, each once. -/
def C58_keywords_statement : Prop :=
  ∀ (dbg : Bool) (src : Text) (g : Green) (errs : List Err) (dropped : Text), parse dbg src = .tree g errs dropped →
    ∀ (u v : Text), src = u ++ v → ∀ (t : Tok) (p : Red), BeingTyped (Red.root g) (bytes u) t → HeadIn t p → keywordsIn p ≠ [] →
    ∃ items, completion src (Red.root g) (posAfter u) = .done (some items) ∧ (items.map CmpItem.label).Nodup ∧
      (∀ n, n ∈ items.map CmpItem.label ↔ n ∈ keywordsIn p) ∧ ∀ i ∈ items, i.kind = .keyword ∧ i.insertText = none

/-- After an opening parenthesis, where the grammar allows only keywords, these keywords are offered, each once.  Missing for the
full claim: keywords of complete parts (`C58_keywords_false`). -/
theorem C58_keywords_partial (dbg : Bool) (src : Text) (g : Green) (errs : List Err) (dropped : Text)
    (h : parse dbg src = .tree g errs dropped) (u v : Text) (hu : src = u ++ v) (t : Tok) (p : Red)
    (ht : BeingTyped (Red.root g) (bytes u) t) (hp : OpensIn t p) (hk : keywordsIn p ≠ []) :
    ∃ items, completion src (Red.root g) (posAfter u) = .done (some items) ∧ (items.map CmpItem.label).Nodup ∧
      (∀ n, n ∈ items.map CmpItem.label ↔ n ∈ keywordsIn p) ∧ ∀ i ∈ items, i.kind = .keyword ∧ i.insertText = none := by
  subst hu
  have hs := parse_solid h
  obtain ⟨x', h1, hxt, _⟩ := tok_parent ht.mem
  obtain ⟨hpp, pre, hp, _⟩ := hp
  rw [hpp] at h1; cases h1
  have hl := leadingParen hs hxt hpp hp
  have hc : ∃ cs, cmpCtx t = cs ∧ cs ≠ [] ∧
      (∀ c ∈ cs, c = .moduleField ∨ c = .imExport ∨ c = .paramResult ∨ c = .portDesc ∨ ∃ k, c = .keyword k) ∧
      ((cs.flatMap parenItems).map CmpItem.label).Nodup ∧ ∀ n, n ∈ (cs.flatMap parenItems).map CmpItem.label ↔ n ∈ keywordsIn p := by
    refine ⟨_, rfl, ?_⟩
    unfold cmpCtx
    rw [hpp]
    simp only [hl, if_true]
    unfold keywordsIn at hk ⊢
    cases hkind : p.kind <;> simp only [hkind, ne_eq, not_true_eq_false] at hk ⊢
    case MODULE_FIELD_GLOBAL =>
      split at hk
      · exact absurd rfl hk
      · rename_i hg
        rw [if_neg (by unfold Red.hasChild; exact hg), if_neg hg]
        refine ⟨by simp, by simp, by decide, ?_⟩
        intro n
        have : ([CmpCtx.keyword t!"mut", .imExport].flatMap parenItems).map CmpItem.label = [t!"mut", t!"import", t!"export"] := rfl
        rw [this]
        simp only [List.mem_cons, List.not_mem_nil, or_false]
        constructor <;> (rintro (h | h | h) <;> simp [h])
    case ROOT => exact ⟨by simp, by simp, by decide, fun n => Iff.rfl⟩
    case MODULE_FIELD_TYPE => exact ⟨by simp, by simp, by decide, fun n => Iff.rfl⟩
    case FUNC_TYPE => exact ⟨by simp, by simp, by decide, fun n => Iff.rfl⟩
    case MODULE_FIELD_IMPORT => exact ⟨by simp, by simp, by decide, fun n => Iff.rfl⟩
    case MODULE_FIELD_EXPORT => exact ⟨by simp, by simp, by decide, fun n => Iff.rfl⟩
    case IMPORT_DESC_GLOBAL_TYPE => exact ⟨by simp, by simp, by decide, fun n => Iff.rfl⟩
    case MODULE_FIELD_TABLE => exact ⟨by simp, by simp, by decide, fun n => Iff.rfl⟩
    case MODULE_FIELD_MEMORY => exact ⟨by simp, by simp, by decide, fun n => Iff.rfl⟩
    case MODULE =>
      refine ⟨by simp, by simp, by decide, fun n => ?_⟩
      have : ([CmpCtx.moduleField].flatMap parenItems).map CmpItem.label = moduleFields := by decide
      rw [this, moduleFields]
      simp only [List.mem_cons, List.not_mem_nil, or_false]
      constructor <;> (rintro (h | h | h | h | h | h | h | h | h | h) <;> simp [h])
    case IMPORT_DESC_TYPE_USE =>
      refine ⟨by simp, by simp, by decide, fun n => ?_⟩
      have : ([CmpCtx.paramResult, .keyword t!"type"].flatMap parenItems).map CmpItem.label = [t!"param", t!"result", t!"type"] := rfl
      rw [this]
      simp only [List.mem_cons, List.not_mem_nil, or_false]
      constructor <;> (rintro (h | h | h) <;> simp [h])
  obtain ⟨cs, h1, h2, h3, h4, h5⟩ := hc
  refine ⟨_, completion_all hs ht h1 h2 parenItems ?_, h4, h5, ?_⟩
  · intro c hc
    rcases h3 c hc with rfl | rfl | rfl | rfl | ⟨k, rfl⟩ <;> rfl
  · intro i hi
    obtain ⟨c, hc, hi⟩ := List.mem_flatMap.mp hi
    rcases h3 c hc with rfl | rfl | rfl | rfl | ⟨k, rfl⟩ <;>
      (simp only [parenItems, keywordItems] at hi; obtain ⟨_, _, rfl⟩ := List.mem_map.mp hi; exact ⟨rfl, rfl⟩)

/-- The code violates the claim: in `(module)` with the cursor in the keyword, the keywords of fields are offered instead of `module`. -/
theorem C58_keywords_false : ¬ C58_keywords_statement := by
  intro h
  have : (parse false t!"(module)").test (fun g _ _ =>
      (typedTest (Red.root g) (bytes t!"(mod") fun t x p => p.kind == .ROOT &&
        (match x.els with
        | .tok q :: .tok t' :: _ => q.text == t!"(" && q.kind == .L_PAREN && t'.off == t.off
        | _ => false)) &&
      (match completion t!"(module)" (Red.root g) (posAfter t!"(mod") with
      | .done (some items) => items.all fun i => i.label != t!"module"
      | _ => false)) = true := by
    decide +kernel
  obtain ⟨g, e, dr, h1, h2⟩ := ParseOut.of_test this
  rw [Bool.and_eq_true] at h2
  obtain ⟨t, x, p, ht, hx, hp, hc⟩ := typedTest_spec h2.1
  simp only [Bool.and_eq_true, beq_iff_eq] at hc
  obtain ⟨hroot, hc⟩ := hc
  obtain ⟨x', g1, g2, g3⟩ := tok_parent ht.mem
  rw [hx] at g1; cases g1
  have hhead : OpensAfter [] t x.els := by
    split at hc
    · rename_i q t' rest hels
      simp only [Bool.and_eq_true, beq_iff_eq] at hc
      have m1 : t' ∈ x.childToks := els_tok (by rw [hels]; simp)
      have : t' = t := childTok_inj (parse_solid h1) g2 m1 g3 hc.2
      subst this
      exact ⟨q, [], .tok t' :: rest, ⟨hc.1.1, .inl hc.1.2⟩, (by intro e he; cases he), by rw [hels]; rfl, .inr ⟨rest, rfl⟩⟩
    · cases hc
  have hkw : keywordsIn p = [t!"module"] := by unfold keywordsIn; rw [hroot]
  obtain ⟨items, h3, _, h4, _⟩ := h _ _ _ _ _ h1 t!"(mod" t!"ule)" rfl t p ht (.inr ⟨x, hx, hp, hhead⟩) (by rw [hkw]; simp)
  have h3 : completion t!"(module)" (Red.root g) (posAfter t!"(mod") = .done (some items) := h3
  have h5 := h2.2
  rw [h3] at h5
  obtain ⟨i, hi, hl⟩ := List.mem_map.mp ((h4 t!"module").mpr (by rw [hkw]; simp))
  have := List.all_eq_true.mp h5 i hi
  rw [hl] at this
  cases this

/-- Non-trivial case of `C58_partial`: an instruction in a function, where keywords are offered as well. -/
example : ∃ g errs dropped t p items, parse false t!"(module (func (drop)))" = .tree g errs dropped ∧
    BeingTyped (Red.root g) (bytes t!"(module (func (dr") t ∧ t.parent = some p ∧ p.kind = .PLAIN_INSTR ∧ t.kind = .INSTR_NAME ∧
    completion t!"(module (func (drop)))" (Red.root g) (posAfter t!"(module (func (dr") = .done (some items) ∧
    t!"f32.sub" ∈ operatorNames items ∧ t!"local" ∉ operatorNames items := by
  have : (parse false t!"(module (func (drop)))").test (fun g _ _ =>
      typedTest (Red.root g) (bytes t!"(module (func (dr") fun t x _ => x.kind == .PLAIN_INSTR && t.kind == .INSTR_NAME) = true := by
    decide +kernel
  obtain ⟨g, e, dr, h1, h2⟩ := ParseOut.of_test this
  obtain ⟨t, x, p, ht, hx, _, hc⟩ := typedTest_spec h2
  simp only [Bool.and_eq_true, beq_iff_eq] at hc
  obtain ⟨items, h3, _, h4, _, h5⟩ := C58_partial false _ g e dr h1 t!"(module (func (dr" t!"op)))" rfl t x ht hx hc.1 hc.2
  refine ⟨g, e, dr, t, x, items, h1, ht, hx, hc.1, hc.2, h3, ?_, fun h => ?_⟩
  · have : instrTable.any (fun e => e.name == t!"f32.sub" && e.opcode == [0x93]) = true := by decide +kernel
    obtain ⟨i, hi, hb⟩ := List.any_eq_true.mp this
    simp only [Bool.and_eq_true, beq_iff_eq] at hb
    rw [← hb.1]
    exact h5 i hi (.inl ⟨0x93, hb.2, by decide, by decide, by decide⟩)
  · have := h4 _ h
    revert this
    decide +kernel

/-- Non-trivial case of `C58_valueTypes`: a type that is not yet complete. -/
example : ∃ g errs dropped t p, parse false t!"(module (func (param i3)))" = .tree g errs dropped ∧
    BeingTyped (Red.root g) (bytes t!"(module (func (param i3") t ∧ t.parent = some p ∧ holdsTypes p.kind = true ∧
    t.text.head? ≠ some '$' := by
  have : (parse false t!"(module (func (param i3)))").test (fun g _ _ =>
      typedTest (Red.root g) (bytes t!"(module (func (param i3") fun t x _ => holdsTypes x.kind && t.text.head? != some '$') = true := by
    decide +kernel
  obtain ⟨g, e, dr, h1, h2⟩ := ParseOut.of_test this
  obtain ⟨t, x, p, ht, hx, _, hc⟩ := typedTest_spec h2
  simp only [Bool.and_eq_true, bne_iff_ne] at hc
  exact ⟨g, e, dr, t, x, h1, ht, hx, hc.1, hc.2⟩

/-- Non-trivial case of `C58_keywords_partial`: the keyword of a field that is being typed. -/
example : ∃ g errs dropped t p, parse false t!"(module (fu)" = .tree g errs dropped ∧
    BeingTyped (Red.root g) (bytes t!"(module (fu") t ∧ OpensIn t p ∧ p.kind = .MODULE ∧ keywordsIn p ≠ [] := by
  have : (parse false t!"(module (fu)").test (fun g _ _ =>
      typedTest (Red.root g) (bytes t!"(module (fu") fun t x _ => x.kind == .MODULE &&
        (match x.els with
        | [_, _, _, .tok q, .tok t', _] => q.text == t!"(" && q.kind == .ERROR && t'.off == t.off
        | _ => false)) = true := by
    decide +kernel
  obtain ⟨g, e, dr, h1, h2⟩ := ParseOut.of_test this
  obtain ⟨t, x, p, ht, hx, _, hc⟩ := typedTest_spec h2
  simp only [Bool.and_eq_true, beq_iff_eq] at hc
  obtain ⟨hk, hc⟩ := hc
  obtain ⟨x', g1, g2, g3⟩ := tok_parent ht.mem
  rw [hx] at g1; cases g1
  refine ⟨g, e, dr, t, x, h1, ht, ⟨hx, ?_⟩, hk, by unfold keywordsIn; rw [hk]; simp⟩
  split at hc
  · rename_i a b c q t' d hels
    simp only [Bool.and_eq_true, beq_iff_eq] at hc
    have m1 : t' ∈ x.childToks := els_tok (by rw [hels]; simp)
    have : t' = t := childTok_inj (parse_solid h1) g2 m1 g3 hc.2
    subst this
    exact ⟨[a, b, c], ⟨q, [], [.tok t', d], ⟨hc.1.1, .inr hc.1.2⟩, (by intro e he; cases he), by rw [hels]; rfl, .inr ⟨[d], rfl⟩⟩,
      .inl (by simp)⟩
  · cases hc

end Verif
