import Verif.Props.C58
/-!
C58, further positions: reference types, memory arguments, and the heads of functions and data segments.
-/
namespace Verif
open Spec

/-- The full statement for reference types: where one stands, both are offered. -/
def C58_refTypes_statement : Prop :=
  ∀ (dbg : Bool) (src : Text) (g : Green) (errs : List Err) (dropped : Text), parse dbg src = .tree g errs dropped →
    ∀ (u v : Text), src = u ++ v → ∀ (t : Tok), BeingTyped (Red.root g) (bytes u) t → t.kind = .REF_TYPE →
    ∃ items, completion src (Red.root g) (posAfter u) = .done (some items) ∧ ∀ n ∈ refTypeNames, n ∈ items.map CmpItem.label

/-- The code violates the claim: in `(module (elem funcref))` nothing is offered at the type. -/
theorem C58_refTypes_false : ¬ C58_refTypes_statement := by
  intro h
  have : (parse false t!"(module (elem funcref))").test (fun g _ _ =>
      typedTest (Red.root g) (bytes t!"(module (elem fun") fun t x _ => t.kind == .REF_TYPE && x.kind == .ELEM_LIST &&
        (match completion t!"(module (elem funcref))" (Red.root g) (posAfter t!"(module (elem fun") with
        | .done none => true
        | _ => false)) = true := by
    decide +kernel
  obtain ⟨g, e, dr, h1, h2⟩ := ParseOut.of_test this
  obtain ⟨t, x, p, ht, hx, hp, hc⟩ := typedTest_spec h2
  simp only [Bool.and_eq_true, beq_iff_eq] at hc
  obtain ⟨items, h3, _⟩ := h _ _ _ _ _ h1 t!"(module (elem fun" t!"cref))" rfl t ht hc.1.1
  have h3 : completion t!"(module (elem funcref))" (Red.root g) (posAfter t!"(module (elem fun") = .done (some items) := h3
  rw [h3] at hc
  cases hc.2

/-- Where the type of a table is expected the reference types are offered, each once and with its description.  Missing for the
full claim: the types of element segments (`C58_refTypes_false`). -/
theorem C58_refTypes_partial (dbg : Bool) (src : Text) (g : Green) (errs : List Err) (dropped : Text) (h : parse dbg src = .tree g errs dropped)
    (u v : Text) (hu : src = u ++ v) (t : Tok) (p : Red) (ht : BeingTyped (Red.root g) (bytes u) t) (hp : t.parent = some p)
    (hk : p.kind = .TABLE_TYPE ∨ p.kind = .IMPORT_DESC_TABLE_TYPE) :
    ∃ items, completion src (Red.root g) (posAfter u) = .done (some items) ∧ (items.map CmpItem.label).Nodup ∧
      (∀ n, n ∈ items.map CmpItem.label ↔ n ∈ refTypeNames) ∧
      ∀ i ∈ items, i.insertText = none ∧ ∃ doc, i.doc = some doc ∧ '`' :: i.label ++ t!"`" <:+: doc := by
  subst hu
  have hc : cmpCtx t = [.refType] := by
    unfold cmpCtx
    rw [hp]
    rcases hk with hk | hk <;> simp only [hk]
  refine ⟨_, completion_one (parse_solid h) ht hc rfl, by decide +kernel, ?_, ?_⟩
  · have : (typeItems [t!"funcref", t!"externref"]).map CmpItem.label = refTypeNames := by decide +kernel
    intro n
    rw [this]
  · have : (typeItems [t!"funcref", t!"externref"]).all
        (fun i => i.insertText == none && i.doc.any fun d => decide ('`' :: i.label ++ t!"`" <:+: d)) = true := by
      decide +kernel
    intro i hi
    have := List.all_eq_true.mp this i hi
    simp only [Bool.and_eq_true, beq_iff_eq, Option.any_eq_true, decide_eq_true_eq] at this
    obtain ⟨h1, d, h2, h3⟩ := this
    exact ⟨h1, d, h2, h3⟩

instance (e : Instr) : Decidable (TakesMemArg e) :=
  decidable_of_iff ((match e.opcode with
    | [b] => 0x28 ≤ b && b ≤ 0x3E
    | [c, b] => c == 0xFD && (b ≤ 11 || 84 ≤ b && b ≤ 93)
    | _ => false) = true) (by
      unfold TakesMemArg
      split
      · rename_i b hb; simp [hb]
      · rename_i c b hb
        simp only [hb, Bool.and_eq_true, Bool.or_eq_true, beq_iff_eq, decide_eq_true_eq]
        constructor
        · rintro ⟨rfl, h⟩; exact .inr ⟨b, rfl, h⟩
        · rintro (⟨_, h, _⟩ | ⟨b', h, h'⟩)
          · cases h
          · cases h; exact ⟨rfl, h'⟩
      · rename_i h1 h2
        constructor
        · intro h; cases h
        · rintro (⟨b, h, _⟩ | ⟨b, h, _⟩)
          · exact absurd h (h1 b)
          · exact absurd h (h2 _ b))

theorem memArg_names : instrTable.all (fun e => decide (e.name ≠ t!"table.init" ∧
    (operandCtx e.name ⟨⟨.ERROR, [], 0⟩, []⟩ = [.memArg] ↔ TakesMemArg e) ∧
    (CmpCtx.memArg ∈ operandCtx e.name ⟨⟨.ERROR, [], 0⟩, []⟩ → TakesMemArg e) ∨ e.name = t!"table.init" ∧ ¬ TakesMemArg e)) = true := by
  decide +kernel

theorem splitDot_eq : ∀ {s a b : Text}, splitDot s = some (a, b) → s = a ++ '.' :: b
  | [], _, _, h => by cases h
  | c :: cs, a, b, h => by
    unfold splitDot at h
    split at h
    · rename_i hc; cases h; rw [hc]; rfl
    · obtain ⟨⟨a', b'⟩, h1, h2⟩ := Option.map_eq_some_iff.mp h
      cases h2
      rw [splitDot_eq h1]; rfl

theorem operandCtx_irrelevant {name : Text} (h : name ≠ t!"table.init") (x y : Red) : operandCtx name x = operandCtx name y := by
  unfold operandCtx
  cases hs : splitDot name with
  | none => rfl
  | some p =>
    obtain ⟨a, b⟩ := p
    have := splitDot_eq hs
    by_cases ha : a = t!"table"
    · by_cases hb : b = t!"init"
      · subst ha hb; exact absurd this h
      · simp only [hb, false_and, if_false]
    · simp only [ha, if_false]

/-- What the contexts of an operand depend on. -/
theorem operand_ctx {t : Tok} {p : Red} {n : Tok} (h : FollowsName t p) (hn : p.token .INSTR_NAME = some n) :
    ∃ x, cmpCtx t = operandCtx n.text x := by
  obtain ⟨hpk, ⟨hx, htk⟩ | ⟨x, hx, hk, hp⟩⟩ := h
  · refine ⟨p, ?_⟩
    unfold cmpCtx
    rw [hx]
    simp only [hpk]
    unfold instrCtx
    rw [if_neg (by simpa using htk)]
    simp only [Red.instrName, hn, Option.map_some]
  · have : (x.enclosing fun k => k == .PLAIN_INSTR) = some p := by
      unfold Red.enclosing
      rw [Red.ancestors_eq, hp, List.find?_cons_of_neg (by rw [hk]; simp)]
      simp only
      rw [Red.ancestors_eq, List.find?_cons_of_pos (by rw [hpk]; rfl)]
    refine ⟨x, ?_⟩
    unfold cmpCtx
    rw [hx]
    simp only [hk, this, Option.bind_some, Red.instrName, hn, Option.map_some]

/-- After the name of an instruction that accesses memory, `offset=` and `align=` are offered. -/
theorem C58_memArgs (dbg : Bool) (src : Text) (g : Green) (errs : List Err) (dropped : Text) (h : parse dbg src = .tree g errs dropped)
    (u v : Text) (hu : src = u ++ v) (t : Tok) (p : Red) (n : Tok) (e : Instr) (ht : BeingTyped (Red.root g) (bytes u) t)
    (hx : FollowsName t p)
    (hn : p.token .INSTR_NAME = some n) (he : e ∈ instrTable) (hne : e.name = n.text) (hm : TakesMemArg e) :
    ∃ items, completion src (Red.root g) (posAfter u) = .done (some items) ∧
      items.map CmpItem.label = [t!"offset=", t!"align="] ∧ ∀ i ∈ items, i.insertText = none := by
  subst hu
  have hc : cmpCtx t = [.memArg] := by
    obtain ⟨x, hc⟩ := operand_ctx hx hn
    rw [hc, ← hne]
    have := of_decide_eq_true (List.all_eq_true.mp memArg_names e he)
    rcases this with ⟨h1, h2, _⟩ | ⟨_, h1⟩
    · rw [operandCtx_irrelevant h1 x _]; exact h2.mpr hm
    · exact absurd hm h1
  refine ⟨_, completion_one (parse_solid h) ht hc rfl, by decide +kernel, ?_⟩
  intro i hi
  obtain ⟨_, _, rfl⟩ := List.mem_map.mp hi
  rfl

/-- The items of what the operands of instructions refer to are no words. -/
theorem ctxItems_noWord {tb : SymbolTable} {root : Red} {t : Tok} {c : CmpCtx} (hc : c ≠ .memArg) {items : List CmpItem}
    (h : ctxItems tb root t c = .done items) : ∀ i ∈ items, i.kind ≠ .snippet := by
  have hidx : ∀ {d : Bool} {k : CmpKind} {x y : Option Text} {a : Idx} {i : CmpItem}, k ≠ .snippet → idxItem d k x y a = some i → i.kind ≠ .snippet := by
    intro d k x y a i hk h
    obtain ⟨_, _, rfl⟩ := Option.map_eq_some_iff.mp h
    exact hk
  intro i hi
  unfold ctxItems at h
  cases c <;> simp only at h <;> first
    | exact absurd rfl hc
    | (cases h; obtain ⟨_, _, rfl⟩ := List.mem_map.mp hi; simp)
    | (cases h; obtain ⟨_, _, h⟩ := List.mem_filterMap.mp hi; exact hidx (by simp) h)
    | (split at h
       · cases h; cases hi
       · first
         | (cases h; obtain ⟨_, _, h⟩ := List.mem_filterMap.mp hi; exact hidx (by simp) h)
         | (obtain ⟨s, _, h⟩ := (filterMapL_mem h i).mp hi
            unfold funcItem at h
            split at h
            · cases h
            · obtain ⟨_, _, h⟩ := bind_done h
              cases h; simp))

/-- After the name of another instruction of the standard, neither is offered. -/
theorem C58_noMemArgs (dbg : Bool) (src : Text) (g : Green) (errs : List Err) (dropped : Text) (h : parse dbg src = .tree g errs dropped)
    (u v : Text) (hu : src = u ++ v) (t : Tok) (p : Red) (n : Tok) (e : Instr) (ht : BeingTyped (Red.root g) (bytes u) t)
    (hx : FollowsName t p)
    (hn : p.token .INSTR_NAME = some n) (he : e ∈ instrTable) (hne : e.name = n.text) (hm : ¬ TakesMemArg e)
    (items : List CmpItem) (ho : completion src (Red.root g) (posAfter u) = .done (some items)) :
    ∀ i ∈ items, i.kind ≠ .snippet := by
  subst hu
  have hc : CmpCtx.memArg ∉ cmpCtx t := by
    obtain ⟨x, hc⟩ := operand_ctx hx hn
    rw [hc, ← hne]
    have := of_decide_eq_true (List.all_eq_true.mp memArg_names e he)
    rcases this with ⟨h1, _, h2⟩ | ⟨h1, _⟩
    · rw [operandCtx_irrelevant h1 x _]; exact fun h => hm (h2 h)
    · rw [h1]
      have e1 : splitDot t!"table.init" = some (t!"table", t!"init") := by decide
      unfold operandCtx
      rw [e1]
      simp only
      rw [if_neg (by decide), if_neg (by decide), if_neg (by decide)]
      simp only [if_true]
      split <;> simp
  unfold completion at ho
  rw [cmpToken_typed (parse_solid h) ht] at ho
  simp only [Ans.bindO, Ans.bind] at ho
  split at ho
  · cases ho
  · obtain ⟨l, h1, h2⟩ := bind_done ho
    cases h2
    obtain ⟨ls, h2, h3⟩ := bind_done h1
    cases h3
    intro i hi
    obtain ⟨l, hl, hi⟩ := List.mem_flatten.mp hi
    obtain ⟨c, hc', he'⟩ := (mapL_mem h2 l).mp hl
    exact ctxItems_noWord (fun e => hc (e ▸ hc')) he' i hi

/-- The keywords among the items. -/
def keywordLabels (items : List CmpItem) : List Text := (items.filter fun i => i.kind == .keyword).map CmpItem.label

theorem firstNode_mem {es : List El} {k : Kind} (h : firstNode es = some k) : ∃ n, .node n ∈ es ∧ n.kind = k := by
  induction es with
  | nil => cases h
  | cons e es ih =>
    cases e with
    | node n => cases h; exact ⟨n, by simp, rfl⟩
    | tok _ =>
      obtain ⟨n, h1, h2⟩ := ih h
      exact ⟨n, List.mem_cons_of_mem _ h1, h2⟩

/-- The full statement for keywords where instructions may follow as well: the keywords offered after an opening
parenthesis are those that may follow, each once. -/
def C58_body_statement : Prop :=
  ∀ (dbg : Bool) (src : Text) (g : Green) (errs : List Err) (dropped : Text), parse dbg src = .tree g errs dropped →
    ∀ (u v : Text), src = u ++ v → ∀ (t : Tok) (p : Red), BeingTyped (Red.root g) (bytes u) t → OpensIn t p →
    p.kind = .MODULE_FIELD_FUNC ∨ p.kind = .MODULE_FIELD_DATA ∨ p.kind = .MODULE_FIELD_ELEM ∨ p.kind = .ELEM ∨ p.kind = .ELEM_LIST →
    ∀ items, completion src (Red.root g) (posAfter u) = .done (some items) →
      (keywordLabels items).Nodup ∧ ∀ n, n ∈ keywordLabels items ↔ n ∈ bodyKeywords p t

/-- The token of an opening parenthesis that is being typed opens a part. -/
theorem opensIn_of {p : Red} {q : Tok} {pre post : List El} (hx : q.parent = some p) (hels : p.els = pre ++ .tok q :: post)
    (ht : q.text = t!"(" ∧ q.kind = .ERROR) (hpre : pre ≠ []) : OpensIn q p :=
  ⟨hx, pre, ⟨q, [], post, ⟨ht.1, .inr ht.2⟩, (by intro e he; cases he), hels, .inl ⟨rfl, rfl⟩⟩, .inl hpre⟩

/-- The code violates the claim: in `(module (func (result i32) (` also `param` is offered, which may only come before the
results. -/
theorem C58_body_false : ¬ C58_body_statement := by
  intro h
  have : (parse false t!"(module (func (result i32) ()").test (fun g _ _ =>
      typedTest (Red.root g) (bytes t!"(module (func (result i32) (") fun t x _ => x.kind == .MODULE_FIELD_FUNC &&
        (match x.els with
        | [.tok _, .tok _, .tok _, .node _, .tok _, .tok q, .tok _] => q.text == t!"(" && q.kind == .ERROR && q.off == t.off
        | _ => false) && !(bodyKeywords x t).contains t!"param" &&
        (match completion t!"(module (func (result i32) ()" (Red.root g) (posAfter t!"(module (func (result i32) (") with
        | .done (some items) => (keywordLabels items).contains t!"param"
        | _ => false)) = true := by
    decide +kernel
  obtain ⟨g, e, dr, h1, h2⟩ := ParseOut.of_test this
  obtain ⟨t, x, p, ht, hx, _, hc⟩ := typedTest_spec h2
  simp only [Bool.and_eq_true, beq_iff_eq] at hc
  obtain ⟨⟨⟨hk, hc⟩, hb⟩, hi⟩ := hc
  obtain ⟨x', g1, g2, g3⟩ := tok_parent ht.mem
  rw [hx] at g1; cases g1
  split at hc
  · rename_i a b c f d q w hels
    simp only [Bool.and_eq_true, beq_iff_eq] at hc
    have : q = t := childTok_inj (parse_solid h1) g2 (els_tok (by rw [hels]; simp)) g3 hc.2
    subst this
    split at hi
    · rename_i items hi'
      have := (h _ _ _ _ _ h1 t!"(module (func (result i32) (" t!")" rfl q x ht
        (opensIn_of (pre := [.tok a, .tok b, .tok c, .node f, .tok d]) hx hels ⟨hc.1.1, hc.1.2⟩ (by simp)) (.inl hk) items hi').2 t!"param"
      rw [List.contains_iff_mem] at hi
      have := this.mp hi
      rw [← List.contains_iff_mem] at this
      rw [this] at hb
      cases hb
    · cases hi
  · cases hc

/-- After an opening parenthesis in a function, data segment or element segment without parts so far (in an element
segment there may be a table), and in a list of elements, the keywords that may follow are offered, each once, and no others.
Missing for the full claim: places after other parts (`C58_body_false`), after `declare` and in lists of indices. -/
theorem C58_body_partial (dbg : Bool) (src : Text) (g : Green) (errs : List Err) (dropped : Text)
    (h : parse dbg src = .tree g errs dropped) (u v : Text) (hu : src = u ++ v) (t : Tok) (p : Red)
    (ht : BeingTyped (Red.root g) (bytes u) t) (hp : OpensIn t p)
    (hk : bodyKeywords p t ≠ [])
    (hi : ∀ c ∈ p.children, p.kind = .MODULE_FIELD_ELEM ∧ c.kind = .TABLE_USE ∧ c.stop ≤ t.off ∨ p.kind = .ELEM ∨ p.kind = .ELEM_LIST) :
    ∃ items, completion src (Red.root g) (posAfter u) = .done (some items) ∧ (keywordLabels items).Nodup ∧
      ∀ n, n ∈ keywordLabels items ↔ n ∈ bodyKeywords p t := by
  subst hu
  have hs := parse_solid h
  obtain ⟨x', h1, hxt, _⟩ := tok_parent ht.mem
  obtain ⟨hpp, pre, hp, _⟩ := hp
  rw [hpp] at h1; cases h1
  have hl := leadingParen hs hxt hpp hp
  have hall : ∀ cs : List CmpCtx, cmpCtx t = cs → cs ≠ [] → (∀ c ∈ cs, c = .instr ∨ c = .imExport ∨ c = .paramResult ∨ ∃ k, c = .keyword k) →
      completion (u ++ v) (Red.root g) (posAfter u) = .done (some (cs.flatMap instrItems)) := by
    intro cs h1 h2 h3
    refine completion_all hs ht h1 h2 instrItems ?_
    intro c hc
    rcases h3 c hc with rfl | rfl | rfl | ⟨k, rfl⟩ <;> rfl
  have hgoal : ∀ cs ks, cmpCtx t = cs → cs ≠ [] → (∀ c ∈ cs, c = .instr ∨ c = .imExport ∨ c = .paramResult ∨ ∃ k, c = .keyword k) →
      keywordLabels (cs.flatMap instrItems) = ks → ks.Nodup → (∀ n, n ∈ ks ↔ n ∈ bodyKeywords p t) →
      ∃ items, completion (u ++ v) (Red.root g) (posAfter u) = .done (some items) ∧ (keywordLabels items).Nodup ∧
        ∀ n, n ∈ keywordLabels items ↔ n ∈ bodyKeywords p t := by
    intro cs ks k1 k2 k3 k4 k5 k6
    refine ⟨_, hall cs k1 k2 k3, by rw [k4]; exact k5, ?_⟩
    rw [k4]; exact k6
  have hk' : p.kind = .MODULE_FIELD_FUNC ∨ p.kind = .MODULE_FIELD_DATA ∨ p.kind = .MODULE_FIELD_ELEM ∨ p.kind = .ELEM ∨
      p.kind = .ELEM_LIST := by
    revert hk
    unfold bodyKeywords
    cases p.kind <;> simp
  have hnil : p.kind ≠ .MODULE_FIELD_ELEM → p.kind ≠ .ELEM → p.kind ≠ .ELEM_LIST → p.children = [] := by
    intro n1 n2 n3
    cases hcs : p.children with
    | nil => rfl
    | cons c cs =>
      rcases hi c (by rw [hcs]; simp) with h | h | h
      · exact absurd h.1 n1
      · exact absurd h n2
      · exact absurd h n3
  rcases hk' with hk' | hk' | hk' | hk' | hk'
  · have hcs := hnil (by rw [hk']; simp) (by rw [hk']; simp) (by rw [hk']; simp)
    have hb : (firstNode t.before).any isInstrKind = false := by
      cases he : firstNode t.before with
      | none => rfl
      | some k =>
        obtain ⟨n, h1, h2⟩ := firstNode_mem he
        unfold Tok.before at h1
        rw [hpp] at h1
        have h1 := (List.takeWhile_sublist _).subset (List.mem_reverse.mp h1)
        have h3 : n ∈ p.children := List.mem_filterMap.mpr ⟨.node n, h1, rfl⟩
        rw [hcs] at h3; cases h3
    have hbody : bodyKeywords p t = [t!"import", t!"export", t!"type", t!"param", t!"result", t!"local"] := by
      unfold bodyKeywords seen seenResult
      simp only [hk', hcs, List.any_nil]
      rfl
    have hc : cmpCtx t = headCtx ∨ cmpCtx t = headCtx ++ [.instr] := by
      unfold cmpCtx
      rw [hpp]
      simp only [hk', hb, hl, Bool.not_false, Bool.and_true, if_true]
      split
      · exact .inr rfl
      · exact .inl (List.append_nil _)
    rcases hc with hc | hc
    · exact hgoal _ _ hc (by simp [headCtx]) (by simp [headCtx]) rfl (by decide +kernel) (by rw [hbody]; exact fun _ => Iff.rfl)
    · exact hgoal _ [t!"import", t!"export", t!"type", t!"param", t!"result", t!"local"] hc (by simp [headCtx]) (by simp [headCtx])
        (by decide +kernel) (by decide +kernel) (by rw [hbody]; exact fun _ => Iff.rfl)
  · have hcs := hnil (by rw [hk']; simp) (by rw [hk']; simp) (by rw [hk']; simp)
    have hc : cmpCtx t = [.keyword t!"memory", .keyword t!"offset", .instr] := by
      unfold cmpCtx
      rw [hpp]
      simp only [hk', hl, if_true]
    have hbody : bodyKeywords p t = [t!"memory", t!"offset"] := by
      unfold bodyKeywords seen
      simp only [hk', hcs, List.any_nil]
      rfl
    exact hgoal _ [t!"memory", t!"offset"] hc (by simp) (by simp) (by decide +kernel) (by decide +kernel)
      (by rw [hbody]; exact fun _ => Iff.rfl)
  · have hch : ∀ c ∈ p.children, c.kind = .TABLE_USE ∧ c.stop ≤ t.off := by
      intro c hc
      rcases hi c hc with h | h | h
      · exact h.2
      · rw [hk'] at h; cases h
      · rw [hk'] at h; cases h
    have hno : p.hasChild .OFFSET = false := by
      unfold Red.hasChild
      rw [List.any_eq_false]
      intro c hc
      rw [(hch c hc).1]; decide
    have hseen : seen p t (· == .TABLE_USE) = p.hasChild .TABLE_USE := by
      unfold seen Red.hasChild
      rw [Bool.eq_iff_iff, List.any_eq_true, List.any_eq_true]
      constructor
      · rintro ⟨c, hc, h1⟩; exact ⟨c, hc, (Bool.and_eq_true _ _ ▸ h1).1⟩
      · rintro ⟨c, hc, h1⟩; exact ⟨c, hc, by rw [Bool.and_eq_true]; exact ⟨h1, by simpa using (hch c hc).2⟩⟩
    have hbody : bodyKeywords p t = (if p.hasChild .TABLE_USE then [] else [t!"table"]) ++ [t!"offset"] := by
      unfold bodyKeywords at hk ⊢
      simp only [hk'] at hk ⊢
      rw [← hseen]
      split at hk
      · exact absurd rfl hk
      · rename_i hn
        rw [if_neg hn]
    have hc : cmpCtx t = (if p.hasChild .TABLE_USE then [] else [.keyword t!"table"]) ++ [.keyword t!"offset"] ++ [.instr] := by
      unfold cmpCtx
      rw [hpp]
      simp only [hk']
      unfold elemCtx
      rw [if_pos hl, hno]
      rfl
    cases ht' : p.hasChild .TABLE_USE with
    | true =>
      rw [ht'] at hc hbody
      exact hgoal _ [t!"offset"] hc (by simp) (by simp) (by decide +kernel) (by decide +kernel) (by rw [hbody]; exact fun _ => Iff.rfl)
    | false =>
      rw [ht'] at hc hbody
      exact hgoal _ [t!"table", t!"offset"] hc (by simp) (by simp) (by decide +kernel) (by decide +kernel)
        (by rw [hbody]; exact fun _ => Iff.rfl)
  · have hc : cmpCtx t = [.instr, .keyword t!"item"] := by
      unfold cmpCtx
      rw [hpp]
      simp only [hk', hl, if_true]
    have hbody : bodyKeywords p t = [t!"item"] := by
      unfold bodyKeywords
      simp only [hk']
    exact hgoal _ [t!"item"] hc (by simp) (by simp) (by decide +kernel) (by decide +kernel) (by rw [hbody]; exact fun _ => Iff.rfl)
  · have hc : cmpCtx t = [.keyword t!"item", .instr] := by
      unfold cmpCtx
      rw [hpp]
      simp only [hk', hl, if_true]
    have hbody : bodyKeywords p t = [t!"item"] := by
      unfold bodyKeywords at hk ⊢
      simp only [hk'] at hk ⊢
      split at hk
      · rename_i hn; rw [if_pos hn]
      · exact absurd rfl hk
    exact hgoal _ [t!"item"] hc (by simp) (by simp) (by decide +kernel) (by decide +kernel) (by rw [hbody]; exact fun _ => Iff.rfl)

/-- The full statement for instructions after an opening parenthesis. -/
def C58_open_statement : Prop :=
  ∀ (dbg : Bool) (src : Text) (g : Green) (errs : List Err) (dropped : Text), parse dbg src = .tree g errs dropped →
    ∀ (u v : Text), src = u ++ v → ∀ (t : Tok) (p : Red), BeingTyped (Red.root g) (bytes u) t → OpensIn t p → TakesInstrs p t →
    ∃ items, completion src (Red.root g) (posAfter u) = .done (some items) ∧
      ∀ e ∈ instrTable, IsBasic e → e.name ∈ operatorNames items

/-- The code violates the claim: in a block, nothing is offered after an opening parenthesis. -/
theorem C58_open_false : ¬ C58_open_statement := by
  intro h
  have : (parse false t!"(module (func (block ())))").test (fun g _ _ =>
      typedTest (Red.root g) (bytes t!"(module (func (block (") fun t x _ => x.kind == .BLOCK_BLOCK &&
        (match x.els with
        | [.tok _, .tok _, .tok _, .tok q, .tok _, .tok _] => q.text == t!"(" && q.kind == .ERROR && q.off == t.off
        | _ => false) &&
        (match completion t!"(module (func (block ())))" (Red.root g) (posAfter t!"(module (func (block (") with
        | .done none => true
        | _ => false)) = true := by
    decide +kernel
  obtain ⟨g, e, dr, h1, h2⟩ := ParseOut.of_test this
  obtain ⟨t, x, p, ht, hx, _, hc⟩ := typedTest_spec h2
  simp only [Bool.and_eq_true, beq_iff_eq] at hc
  obtain ⟨⟨hk, hc⟩, hi⟩ := hc
  obtain ⟨x', g1, g2, g3⟩ := tok_parent ht.mem
  rw [hx] at g1; cases g1
  split at hc
  · rename_i a b c q d w hels
    simp only [Bool.and_eq_true, beq_iff_eq] at hc
    have : q = t := childTok_inj (parse_solid h1) g2 (els_tok (by rw [hels]; simp)) g3 hc.2
    subst this
    obtain ⟨items, h3, _⟩ := h _ _ _ _ _ h1 t!"(module (func (block (" t!"))))" rfl q x ht
      (opensIn_of (pre := [.tok a, .tok b, .tok c]) hx hels ⟨hc.1.1, hc.1.2⟩ (by simp)) (by unfold TakesInstrs; rw [hk]; trivial)
    have h3 : completion t!"(module (func (block ())))" (Red.root g) (posAfter t!"(module (func (block (") = .done (some items) := h3
    rw [h3] at hi
    cases hi
  · cases hc

/-- The elements after a token begin behind it. -/
theorem after_start {t : Tok} {p : Red} {e : El} (hs : Solid g) (hpt : InTree g p) (hp : t.parent = some p) (ht : t ∈ p.childToks)
    (he : e ∈ t.after) : t.off + bytes t.text ≤ e.start := by
  unfold Tok.after at he
  rw [hp] at he
  simp only at he
  have ho : p.els.Pairwise (fun a b => a.stop ≤ b.start) := (childEls_order _ _ _).1
  have hsplit := List.takeWhile_append_dropWhile (p := fun e => !isTok t e) (l := p.els)
  cases hd : p.els.dropWhile (fun e => !isTok t e) with
  | nil => rw [hd] at he; cases he
  | cons w rest =>
    rw [hd] at he
    simp only [List.drop_succ_cons, List.drop_zero] at he
    have hw : isTok t w = true := by
      have := List.head?_dropWhile_not (fun e => !isTok t e) p.els
      rw [hd] at this
      simpa using this
    rw [hd] at hsplit
    rw [← hsplit, List.pairwise_append] at ho
    have h1 := (List.pairwise_cons.mp ho.2.1).1 e he
    cases w with
    | node _ => cases hw
    | tok w =>
      have hwm : w ∈ p.childToks := els_tok (by rw [← hsplit]; simp)
      have : w = t := childTok_inj hs hpt hwm ht (by simpa [isTok] using hw)
      subst this
      exact h1

/-- After an opening parenthesis where an instruction may follow, other than in blocks and folded instructions, the
instructions are offered as at the name of one.  Missing for the full claim: blocks and folded instructions (`C58_open_false`), and
the instructions that are never offered (`C58_missing`). -/
theorem C58_open_partial (dbg : Bool) (src : Text) (g : Green) (errs : List Err) (dropped : Text)
    (h : parse dbg src = .tree g errs dropped) (u v : Text) (hu : src = u ++ v) (t : Tok) (p : Red)
    (ht : BeingTyped (Red.root g) (bytes u) t) (hp : OpensIn t p) (hi : TakesInstrs p t) (hb : isBody p.kind = false) :
    ∃ items, completion src (Red.root g) (posAfter u) = .done (some items) ∧ (operatorNames items).Nodup ∧
      (∀ n ∈ operatorNames items, IsInstrName n ∨ n = t!"i8x16.mul") ∧
      (∀ n ∈ controlNames, n ∈ operatorNames items) ∧
      ∀ e ∈ instrTable, IsBasic e ∨ IsLaneAccess e → e.name ∈ operatorNames items := by
  subst hu
  have hs := parse_solid h
  obtain ⟨x', h1, hxt, htc⟩ := tok_parent ht.mem
  obtain ⟨hpp, pre, hp, _⟩ := hp
  rw [hpp] at h1; cases h1
  have hl := leadingParen hs hxt hpp hp
  have hgoal : ∀ a b : List CmpCtx, cmpCtx t = a ++ .instr :: b →
      (∀ c ∈ a, c = .imExport ∨ c = .paramResult ∨ ∃ k, c = .keyword k) →
      (∀ c ∈ b, c = .imExport ∨ c = .paramResult ∨ ∃ k, c = .keyword k) →
      ∃ items, completion (u ++ v) (Red.root g) (posAfter u) = .done (some items) ∧ operatorNames items = instrNames := by
    intro a b h1 h2 h3
    refine ⟨_, completion_all hs ht h1 (by simp) instrItems ?_, operatorNames_ctx a b h2 h3⟩
    intro c hc
    rcases List.mem_append.mp hc with hc | hc
    · rcases h2 c hc with rfl | rfl | ⟨k, rfl⟩ <;> rfl
    · rcases List.mem_cons.mp hc with rfl | hc
      · rfl
      · rcases h3 c hc with rfl | rfl | ⟨k, rfl⟩ <;> rfl
  have hmain : ∃ items, completion (u ++ v) (Red.root g) (posAfter u) = .done (some items) ∧ operatorNames items = instrNames := by
    have hk : p.kind = .OFFSET ∨ p.kind = .ELEM_EXPR ∨ p.kind = .ELEM ∨ p.kind = .ELEM_LIST ∨ p.kind = .MODULE_FIELD_DATA ∨
        p.kind = .MODULE_FIELD_ELEM ∨ p.kind = .MODULE_FIELD_GLOBAL ∨ p.kind = .MODULE_FIELD_FUNC := by
      revert hi hb
      unfold TakesInstrs
      cases p.kind <;> simp [isBody]
    unfold TakesInstrs at hi
    rcases hk with hk | hk | hk | hk | hk | hk | hk | hk
    · exact hgoal [] [] (by unfold cmpCtx; rw [hpp]; simp only [hk]; rfl) (by simp) (by simp)
    · exact hgoal [] [] (by unfold cmpCtx; rw [hpp]; simp only [hk]; rfl) (by simp) (by simp)
    · exact hgoal [] [.keyword t!"item"] (by unfold cmpCtx; rw [hpp]; simp only [hk, hl, if_true]; rfl) (by simp) (by simp)
    · exact hgoal [.keyword t!"item"] [] (by unfold cmpCtx; rw [hpp]; simp only [hk, hl, if_true]; rfl) (by simp) (by simp)
    · exact hgoal [.keyword t!"memory", .keyword t!"offset"] []
        (by unfold cmpCtx; rw [hpp]; simp only [hk, hl, if_true]; rfl) (by simp) (by simp)
    · refine hgoal (if p.hasChild .OFFSET then [.keyword t!"item"]
        else (if p.hasChild .TABLE_USE then [] else [.keyword t!"table"]) ++ [.keyword t!"offset"]) []
        (by unfold cmpCtx; rw [hpp]; simp only [hk]; unfold elemCtx; rw [if_pos hl]) ?_ (by simp)
      split
      · simp
      · split <;> simp
    · rw [hk] at hi
      obtain ⟨c, hc, hck⟩ := hi
      have : p.hasChild .GLOBAL_TYPE = true := by
        unfold Red.hasChild
        exact List.any_eq_true.mpr ⟨c, hc, by rw [hck]; rfl⟩
      exact hgoal [] [] (by unfold cmpCtx; rw [hpp]; simp only [hk, this, if_true]; rfl) (by simp) (by simp)
    · rw [hk] at hi
      have ha : (firstNode t.after).all isInstrKind = true := by
        cases he : firstNode t.after with
        | none => rfl
        | some k =>
          obtain ⟨n, h1, h2⟩ := firstNode_mem he
          have h3 := after_start hs hxt hpp htc h1
          have h4 : n ∈ p.children := by
            unfold Tok.after at h1
            rw [hpp] at h1
            exact els_child ((List.dropWhile_sublist _).subset (List.mem_of_mem_drop h1))
          have h5 := hi n h4 h3
          rw [h2] at h5
          revert h5
          cases k <;> simp [isInstruction, isInstrKind]
      refine hgoal (if !(firstNode t.before).any isInstrKind && hasLeadingLParen t then headCtx else []) []
        (by unfold cmpCtx; rw [hpp]; simp only [hk, ha, if_true]) ?_ (by simp)
      split <;> simp [headCtx]
  obtain ⟨items, h1, h2⟩ := hmain
  exact ⟨items, h1, names_offered h2⟩

/-- The keywords that begin a part of a function before its instructions. -/
def headKeywords : List Text := [t!"import", t!"export", t!"type", t!"param", t!"result", t!"local"]

/-- The last node among the elements is an instruction. -/
def EndsInInstr (es : List El) : Prop :=
  ∃ pre c mid, es = pre ++ .node c :: mid ∧ isInstruction c.kind = true ∧ ∀ e ∈ mid, ∃ w, e = .tok w

theorem firstNode_last {es : List El} (h : EndsInInstr es) : (firstNode es.reverse).any isInstrKind = true := by
  obtain ⟨pre, c, mid, rfl, hc, hm⟩ := h
  have : firstNode ((pre ++ .node c :: mid).reverse) = some c.kind := by
    rw [List.reverse_append, List.reverse_cons, List.append_assoc]
    have : ∀ e ∈ mid.reverse, ∃ w, e = El.tok w := fun e he => hm e (List.mem_reverse.mp he)
    generalize mid.reverse = m at this
    induction m with
    | nil => rfl
    | cons e m ih =>
      obtain ⟨w, rfl⟩ := this e (by simp)
      exact ih fun e he => this e (List.mem_cons_of_mem _ he)
  rw [this]
  revert hc
  cases c.kind <;> simp [isInstruction, isInstrKind]

theorem firstNode_none {es : List El} (h : ∀ c, .node c ∈ es → isInstruction c.kind = false) :
    (firstNode es.reverse).any isInstrKind = false := by
  cases he : firstNode es.reverse with
  | none => rfl
  | some k =>
    obtain ⟨n, h1, h2⟩ := firstNode_mem he
    have := h n (List.mem_reverse.mp h1)
    rw [h2] at this
    revert this
    cases k <;> simp [isInstruction, isInstrKind]

/-- At the name of an instruction in a function, the parts before the instructions are not offered when an instruction is right
before; they are, when the name follows an opening parenthesis and no instruction is before. -/
theorem C58_instr_keywords (dbg : Bool) (src : Text) (g : Green) (errs : List Err) (dropped : Text)
    (h : parse dbg src = .tree g errs dropped) (u v : Text) (hu : src = u ++ v) (t : Tok) (p f : Red)
    (ht : BeingTyped (Red.root g) (bytes u) t) (hp : t.parent = some p) (hk : p.kind = .PLAIN_INSTR) (htk : t.kind = .INSTR_NAME)
    (hf : p.parent = some f) (hfk : f.kind = .MODULE_FIELD_FUNC) (pre post : List El) (he : f.els = pre ++ .node p :: post) :
    ∃ items, completion src (Red.root g) (posAfter u) = .done (some items) ∧
      (EndsInInstr pre → keywordLabels items = []) ∧
      (OpensAfter [] t p.els → (∀ c, .node c ∈ pre → isInstruction c.kind = false) → keywordLabels items = headKeywords) := by
  subst hu
  have hs := parse_solid h
  obtain ⟨x', h1, hxt, htc⟩ := tok_parent ht.mem
  rw [hp] at h1; cases h1
  have hlt : p.start < p.stop := by
    have h1 := childTok_within htc
    have h2 := childTok_solid hs hxt htc
    unfold Tok.stop at h1
    omega
  have hb := node_before hf hlt he
  have hc : cmpCtx t = .instr :: if !(firstNode pre.reverse).any isInstrKind && hasLeadingLParen t then headCtx else [] := by
    unfold cmpCtx
    rw [hp]
    simp only [hk]
    unfold instrCtx
    rw [if_pos (by rw [htk]; rfl), hf]
    simp only [hfk, hb]
  refine ⟨_, completion_all hs ht hc (by simp) instrItems ?_, fun h1 => ?_, fun h1 h2 => ?_⟩
  · intro c hc
    rcases List.mem_cons.mp hc with rfl | hc
    · rfl
    · split at hc
      · simp only [headCtx, List.mem_cons, List.not_mem_nil, or_false] at hc
        rcases hc with rfl | rfl | rfl | rfl <;> rfl
      · cases hc
  · rw [firstNode_last h1, Bool.not_true, Bool.false_and, if_neg (by decide)]
    decide +kernel
  · rw [firstNode_none h2, leadingParen hs hxt hp h1]
    decide +kernel

/-- After an opening parenthesis in a function, the parts before the instructions are not offered when an instruction is right
before; they are, when none is before. -/
theorem C58_func_keywords (dbg : Bool) (src : Text) (g : Green) (errs : List Err) (dropped : Text)
    (h : parse dbg src = .tree g errs dropped) (u v : Text) (hu : src = u ++ v) (t : Tok) (f : Red)
    (ht : BeingTyped (Red.root g) (bytes u) t) (hp : OpensIn t f) (hfk : f.kind = .MODULE_FIELD_FUNC)
    (pre post : List El) (he : f.els = pre ++ .tok t :: post) :
    (EndsInInstr pre → ∀ items, completion src (Red.root g) (posAfter u) = .done (some items) → keywordLabels items = []) ∧
    ((∀ c, .node c ∈ pre → isInstruction c.kind = false) →
      ∃ items, completion src (Red.root g) (posAfter u) = .done (some items) ∧ keywordLabels items = headKeywords) := by
  subst hu
  have hs := parse_solid h
  obtain ⟨hpp, pre', hp, _⟩ := hp
  obtain ⟨x', h1, hxt, htc⟩ := tok_parent ht.mem
  rw [hpp] at h1; cases h1
  have hl := leadingParen hs hxt hpp hp
  have hb := tok_before hs hxt hpp he
  have hc : cmpCtx t = (if !(firstNode pre.reverse).any isInstrKind then headCtx else []) ++
      (if (firstNode t.after).all isInstrKind then [.instr] else []) := by
    unfold cmpCtx
    rw [hpp]
    simp only [hfk, hb, hl, Bool.and_true]
  refine ⟨fun h1 items hi => ?_, fun h1 => ?_⟩
  · rw [firstNode_last h1] at hc
    by_cases ha : (firstNode t.after).all isInstrKind = true
    · rw [if_pos ha] at hc
      have := completion_all (v := v) hs ht (cs := [.instr]) (hc.trans (by simp)) (by simp) instrItems (by simp [ctxItems, instrItems])
      rw [this] at hi
      cases hi
      decide +kernel
    · rw [if_neg ha] at hc
      rw [completion_silent (v := v) hs ht (hc.trans (by simp))] at hi
      cases hi
  · rw [firstNode_none h1] at hc
    by_cases ha : (firstNode t.after).all isInstrKind = true
    · rw [if_pos ha] at hc
      refine ⟨_, completion_all (v := v) hs ht (cs := headCtx ++ [.instr]) (hc.trans (by simp)) (by simp) instrItems
        (by simp [ctxItems, instrItems, headCtx]), ?_⟩
      decide +kernel
    · rw [if_neg ha] at hc
      refine ⟨_, completion_all (v := v) hs ht (cs := headCtx) (hc.trans (by simp)) (by simp [headCtx]) instrItems
        (by simp [ctxItems, instrItems, headCtx]), ?_⟩
      decide +kernel

/-- Non-trivial case of `C58_instr_keywords`: a second instruction. -/
example : ∃ g errs dropped t p f pre post items, parse false t!"(module (func (nop) (drop)))" = .tree g errs dropped ∧
    BeingTyped (Red.root g) (bytes t!"(module (func (nop) (dr") t ∧ t.parent = some p ∧ p.kind = .PLAIN_INSTR ∧ t.kind = .INSTR_NAME ∧
    p.parent = some f ∧ f.kind = .MODULE_FIELD_FUNC ∧ f.els = pre ++ .node p :: post ∧ EndsInInstr pre ∧
    completion t!"(module (func (nop) (drop)))" (Red.root g) (posAfter t!"(module (func (nop) (dr") = .done (some items) ∧
    keywordLabels items = [] := by
  have : (parse false t!"(module (func (nop) (drop)))").test (fun g _ _ =>
      typedTest (Red.root g) (bytes t!"(module (func (nop) (dr") fun t x f => x.kind == .PLAIN_INSTR && t.kind == .INSTR_NAME &&
        f.kind == .MODULE_FIELD_FUNC && (match f.els with
          | [.tok _, .tok _, .tok _, .node c, .tok _, .node q, .tok _] => isInstruction c.kind && q.key == x.key
          | _ => false)) = true := by
    decide +kernel
  obtain ⟨g, e, dr, h1, h2⟩ := ParseOut.of_test this
  obtain ⟨t, x, f, ht, hx, hf, hc⟩ := typedTest_spec h2
  simp only [Bool.and_eq_true, beq_iff_eq] at hc
  obtain ⟨⟨⟨hk, htk⟩, hfk⟩, hc⟩ := hc
  split at hc
  · rename_i a b c n d q z hels
    simp only [Bool.and_eq_true, beq_iff_eq] at hc
    obtain ⟨x', g1, g2, g3⟩ := tok_parent ht.mem
    rw [hx] at g1; cases g1
    have hq : q = x := InTree.key_inj (parse_solid h1) ((g2.parent hf).1.child (els_child (by rw [hels]; simp))) g2 hc.2 (by rw [hk]; rfl)
    subst hq
    have hels' : f.els = [.tok a, .tok b, .tok c, .node n, .tok d] ++ .node q :: [.tok z] := hels
    have hend : EndsInInstr [.tok a, .tok b, .tok c, .node n, .tok d] :=
      ⟨[.tok a, .tok b, .tok c], n, [.tok d], rfl, hc.1, by simp⟩
    obtain ⟨items, i1, i2, _⟩ := C58_instr_keywords false _ g e dr h1 t!"(module (func (nop) (dr" t!"op)))" rfl t q f ht hx hk htk hf hfk _ _ hels'
    exact ⟨g, e, dr, t, q, f, _, _, items, h1, ht, hx, hk, htk, hf, hfk, hels', hend, i1, i2 hend⟩
  · cases hc

/-- Non-trivial case of `C58_refTypes_partial`: a type that is not yet complete. -/
example : ∃ g errs dropped t p, parse false t!"(module (table 1 fun))" = .tree g errs dropped ∧
    BeingTyped (Red.root g) (bytes t!"(module (table 1 fun") t ∧ t.parent = some p ∧ (p.kind = .TABLE_TYPE ∨ p.kind = .IMPORT_DESC_TABLE_TYPE) ∧
    t.text = t!"fun" := by
  have : (parse false t!"(module (table 1 fun))").test (fun g _ _ =>
      typedTest (Red.root g) (bytes t!"(module (table 1 fun") fun t x _ => x.kind == .TABLE_TYPE && t.text == t!"fun") = true := by
    decide +kernel
  obtain ⟨g, e, dr, h1, h2⟩ := ParseOut.of_test this
  obtain ⟨t, x, p, ht, hx, _, hc⟩ := typedTest_spec h2
  simp only [Bool.and_eq_true, beq_iff_eq] at hc
  exact ⟨g, e, dr, t, x, h1, ht, hx, .inl hc.1, hc.2⟩

/-- Non-trivial case of `C58_memArgs`: a word that is not yet complete. -/
example : ∃ g errs dropped t p n e, parse false t!"(module (func (i32.load of)))" = .tree g errs dropped ∧
    BeingTyped (Red.root g) (bytes t!"(module (func (i32.load of") t ∧ FollowsName t p ∧ p.token .INSTR_NAME = some n ∧
    e ∈ instrTable ∧ e.name = n.text ∧ TakesMemArg e := by
  have : (parse false t!"(module (func (i32.load of)))").test (fun g _ _ =>
      typedTest (Red.root g) (bytes t!"(module (func (i32.load of") fun t x _ => x.kind == .PLAIN_INSTR && t.kind != .INSTR_NAME &&
        (x.token .INSTR_NAME).any fun n => n.text == t!"i32.load") = true := by
    decide +kernel
  obtain ⟨g, e, dr, h1, h2⟩ := ParseOut.of_test this
  obtain ⟨t, x, p, ht, hx, _, hc⟩ := typedTest_spec h2
  simp only [Bool.and_eq_true, beq_iff_eq, bne_iff_ne, Option.any_eq_true] at hc
  obtain ⟨⟨c1, c2⟩, n, c3, c4⟩ := hc
  have : instrTable.any (fun e => e.name == t!"i32.load" && decide (TakesMemArg e)) = true := by decide +kernel
  obtain ⟨i, hi, hb⟩ := List.any_eq_true.mp this
  simp only [Bool.and_eq_true, beq_iff_eq, decide_eq_true_eq] at hb
  exact ⟨g, e, dr, t, x, n, i, h1, ht, ⟨c1, .inl ⟨hx, c2⟩⟩, c3, hi, by rw [hb.1, c4], hb.2⟩

/-- Non-trivial case of `C58_noMemArgs`: the operand of an instruction that accesses a local. -/
example : ∃ g errs dropped t p n e items, parse false t!"(module (func (param i32) (local.get 0)))" = .tree g errs dropped ∧
    BeingTyped (Red.root g) (bytes t!"(module (func (param i32) (local.get 0") t ∧ FollowsName t p ∧ p.token .INSTR_NAME = some n ∧
    e ∈ instrTable ∧ e.name = n.text ∧ ¬ TakesMemArg e ∧
    completion t!"(module (func (param i32) (local.get 0)))" (Red.root g) (posAfter t!"(module (func (param i32) (local.get 0") = .done (some items) ∧
    items ≠ [] := by
  have : (parse false t!"(module (func (param i32) (local.get 0)))").test (fun g _ _ =>
      (typedTest (Red.root g) (bytes t!"(module (func (param i32) (local.get 0") fun t x p => x.kind == .OPERAND && p.kind == .PLAIN_INSTR &&
        (p.token .INSTR_NAME).any fun n => n.text == t!"local.get") &&
      (match completion t!"(module (func (param i32) (local.get 0)))" (Red.root g) (posAfter t!"(module (func (param i32) (local.get 0") with
      | .done (some items) => !items.isEmpty
      | _ => false)) = true := by
    decide +kernel
  obtain ⟨g, e, dr, h1, h2⟩ := ParseOut.of_test this
  rw [Bool.and_eq_true] at h2
  obtain ⟨t, x, p, ht, hx, hp, hc⟩ := typedTest_spec h2.1
  simp only [Bool.and_eq_true, beq_iff_eq, Option.any_eq_true] at hc
  obtain ⟨⟨c1, c2⟩, n, c3, c4⟩ := hc
  have : instrTable.any (fun e => e.name == t!"local.get" && !decide (TakesMemArg e)) = true := by decide +kernel
  obtain ⟨i, hi, hb⟩ := List.any_eq_true.mp this
  simp only [Bool.and_eq_true, beq_iff_eq, Bool.not_eq_true', decide_eq_false_iff_not] at hb
  have h3 := h2.2
  split at h3
  · rename_i items hi'
    exact ⟨g, e, dr, t, p, n, i, items, h1, ht, ⟨c2, .inr ⟨x, hx, c1, hp⟩⟩, c3, hi, by rw [hb.1, c4], hb.2, hi', by simpa using h3⟩
  · cases h3

/-- Non-trivial case of `C58_body_partial`: a parenthesis in a function. -/
example : ∃ g errs dropped t p, parse false t!"(module (func ()" = .tree g errs dropped ∧
    BeingTyped (Red.root g) (bytes t!"(module (func (") t ∧ OpensIn t p ∧ bodyKeywords p t ≠ [] ∧
    ∀ c ∈ p.children, p.kind = .MODULE_FIELD_ELEM ∧ c.kind = .TABLE_USE ∧ c.stop ≤ t.off ∨ p.kind = .ELEM ∨ p.kind = .ELEM_LIST := by
  have : (parse false t!"(module (func ()").test (fun g _ _ =>
      typedTest (Red.root g) (bytes t!"(module (func (") fun t x _ => (x.kind == .MODULE_FIELD_FUNC && !(bodyKeywords x t).isEmpty) &&
        (match x.els with
        | [.tok _, .tok _, .tok _, .tok q, .tok _] => q.text == t!"(" && q.kind == .ERROR && q.off == t.off
        | _ => false)) = true := by
    decide +kernel
  obtain ⟨g, e, dr, h1, h2⟩ := ParseOut.of_test this
  obtain ⟨t, x, p, ht, hx, _, hc⟩ := typedTest_spec h2
  simp only [Bool.and_eq_true, beq_iff_eq] at hc
  obtain ⟨hk, hc⟩ := hc
  obtain ⟨x', g1, g2, g3⟩ := tok_parent ht.mem
  rw [hx] at g1; cases g1
  split at hc
  · rename_i a b c q d hels
    simp only [Bool.and_eq_true, beq_iff_eq] at hc
    have m1 : q ∈ x.childToks := els_tok (by rw [hels]; simp)
    have : q = t := childTok_inj (parse_solid h1) g2 m1 g3 hc.2
    subst this
    refine ⟨g, e, dr, q, x, h1, ht, ⟨hx, [.tok a, .tok b, .tok c], ⟨q, [], [.tok d], ⟨hc.1.1, .inr hc.1.2⟩, (by intro e he; cases he), by rw [hels]; rfl,
      .inl ⟨rfl, rfl⟩⟩, .inl (by simp)⟩, by simpa using hk.2, ?_⟩
    intro c hc
    unfold Red.children at hc
    rw [hels] at hc
    cases hc
  · cases hc

/-- Non-trivial case of `C58_body_partial` and `C58_open_partial`: a parenthesis in an element segment after the table. -/
example : ∃ g errs dropped t p, parse false t!"(module (elem (table 0) ()" = .tree g errs dropped ∧
    BeingTyped (Red.root g) (bytes t!"(module (elem (table 0) (") t ∧ OpensIn t p ∧ bodyKeywords p t = [t!"offset"] ∧
    (∀ c ∈ p.children, p.kind = .MODULE_FIELD_ELEM ∧ c.kind = .TABLE_USE ∧ c.stop ≤ t.off ∨ p.kind = .ELEM ∨ p.kind = .ELEM_LIST) ∧
    TakesInstrs p t ∧ isBody p.kind = false := by
  have : (parse false t!"(module (elem (table 0) ()").test (fun g _ _ =>
      typedTest (Red.root g) (bytes t!"(module (elem (table 0) (") fun t x _ =>
        (x.kind == .MODULE_FIELD_ELEM && bodyKeywords x t == [t!"offset"] &&
          (x.children.all fun c => c.kind == .TABLE_USE && decide (c.stop ≤ t.off))) &&
        (match x.els with
        | [.tok _, .tok _, .tok _, .node _, .tok _, .tok q, .tok _] => q.text == t!"(" && q.kind == .ERROR && q.off == t.off
        | _ => false)) = true := by
    decide +kernel
  obtain ⟨g, e, dr, h1, h2⟩ := ParseOut.of_test this
  obtain ⟨t, x, p, ht, hx, _, hc⟩ := typedTest_spec h2
  simp only [Bool.and_eq_true, beq_iff_eq, List.all_eq_true, decide_eq_true_eq] at hc
  obtain ⟨⟨⟨hk, hb⟩, hch⟩, hc⟩ := hc
  obtain ⟨x', g1, g2, g3⟩ := tok_parent ht.mem
  rw [hx] at g1; cases g1
  split at hc
  · rename_i a b c f d q w hels
    simp only [Bool.and_eq_true, beq_iff_eq] at hc
    have : q = t := childTok_inj (parse_solid h1) g2 (els_tok (by rw [hels]; simp)) g3 hc.2
    subst this
    refine ⟨g, e, dr, q, x, h1, ht,
      opensIn_of (pre := [.tok a, .tok b, .tok c, .node f, .tok d]) hx hels ⟨hc.1.1, hc.1.2⟩ (by simp), hb,
      fun c hc => .inl ⟨hk, hch c hc⟩, ?_, by rw [hk]; rfl⟩
    unfold TakesInstrs
    rw [hk]
    refine ⟨?_, ?_⟩ <;>
    · unfold seen
      rw [List.any_eq_false]
      intro c hc
      rw [(hch c hc).1]
      simp
  · cases hc

end Verif
