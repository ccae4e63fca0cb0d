import Verif.Lemmas.Resolve
/-!
Helper lemmas: the offsets of a tree that covers its source are character boundaries of the source, so that ranges
can be converted; requests do not panic.
-/
namespace Verif
open Spec

variable {g : Green}

/-- The text of a node is where the node is. -/
theorem Chained.text_split {top : Frame} : ∀ {l : List Frame}, Chained top l → ∀ f ∈ l,
    ∃ u v, Green.textL top.cs = u ++ Green.textL f.cs ++ v ∧ top.off + bytes u = f.off
  | [], h => h.elim
  | [f], h => by
    cases h; intro f hf; rw [List.mem_singleton] at hf; subst hf
    exact ⟨[], [], by simp, by simp [bytes_nil]⟩
  | f :: g :: up, h => by
    have ih := Chained.text_split h.2
    intro x hx
    rcases List.mem_cons.mp hx with rfl | hx
    · obtain ⟨u, v, h1, h2⟩ := ih g (by simp)
      obtain ⟨a, b, h3, h4⟩ := h.1
      refine ⟨u ++ Green.textL a, Green.textL b ++ v, ?_, ?_⟩
      · rw [h1, h3, textL_append, textL_cons, text_node]; simp
      · rw [bytes_append]; omega
    · exact ih x hx

theorem InTree.text_split (hs : Solid g) {n : Red} (h : InTree g n) :
    ∃ u v, g.text = u ++ Green.textL n.self.cs ++ v ∧ bytes u = n.start := by
  obtain ⟨u, v, h1, h2⟩ := Chained.text_split (inTree_iff.mp h) n.self (by simp)
  obtain ⟨cs, rfl⟩ := hs.root
  refine ⟨u, v, by rw [text_node]; exact h1, ?_⟩
  have : (Red.root (.node .ROOT cs)).self.off = 0 := rfl
  unfold Red.start
  omega

theorem tok_split (hs : Solid g) {t : Tok} (h : t ∈ (Red.root g).tokens) :
    ∃ u v, g.text = u ++ t.text ++ v ∧ bytes u = t.off := by
  obtain ⟨p, hp, hpt, hpc⟩ := tok_parent h
  obtain ⟨⟨a, b, h1, h2⟩, _⟩ := Red.mem_childToks.mp hpc
  obtain ⟨u, v, h3, h4⟩ := hpt.text_split hs
  refine ⟨u ++ Green.textL a, Green.textL b ++ v, ?_, ?_⟩
  · rw [h3, h1, textL_append, textL_cons, text_tok]; simp
  · rw [bytes_append, h4, h2]; rfl

theorem tok_mem {n : Red} (hn : InTree g n) {t : Tok} (h : t ∈ n.childToks) : t ∈ (Red.root g).tokens :=
  Red.mem_tokens.mpr ⟨n, hn, h⟩

theorem range_ok {src a b c : Text} (h : src = a ++ b ++ c) {o p : Nat} (ho : bytes a = o) (hp : o + bytes b = p) :
    ∃ r, rowanRangeToLsp src o p = some r := by
  refine ⟨⟨posAfter a, posAfter (a ++ b)⟩, rowanRangeToLsp_iff.mpr ⟨⟨a, b ++ c, by rw [h]; simp, ho, rfl⟩, ⟨a ++ b, c, h, ?_, rfl⟩⟩⟩
  rw [bytes_append]; omega

theorem node_range_ok (hs : Solid g) {src d : Text} (ht : g.text ++ d = src) {n : Red} (h : InTree g n) :
    ∃ r, rowanRangeToLsp src n.start n.stop = some r := by
  obtain ⟨u, v, h1, h2⟩ := h.text_split hs
  exact range_ok (c := v ++ d) (by rw [← ht, h1]; simp) h2 rfl

theorem tok_range_ok (hs : Solid g) {src d : Text} (ht : g.text ++ d = src) {t : Tok} (h : t ∈ (Red.root g).tokens) :
    ∃ r, rowanRangeToLsp src t.off t.stop = some r := by
  obtain ⟨u, v, h1, h2⟩ := tok_split hs h
  exact range_ok (c := v ++ d) (by rw [← ht, h1]; simp) h2 rfl

theorem nameRange_ok (hs : Solid g) {src d : Text} (ht : g.text ++ d = src) {n : Red} (h : InTree g n) :
    ∃ r, rowanRangeToLsp src (nameRange n).1 (nameRange n).2 = some r := by
  unfold nameRange
  have aux : ∀ {k} {t : Tok}, n.childToks.find? (fun t => t.kind == k) = some t →
      ∃ r, rowanRangeToLsp src t.off (t.off + bytes t.text) = some r := fun hf =>
    tok_range_ok hs ht (tok_mem h (List.mem_of_find?_eq_some hf))
  split
  · rename_i hf; exact aux hf
  · rename_i hf; exact aux hf
  · exact node_range_ok hs ht h

theorem location_ok (hs : Solid g) {src d : Text} (ht : g.text ++ d = src) {s : Sym} {x : Red} (h : IsSym g s x) :
    ∃ r, locationOf src (Red.root g) s = .done r := by
  obtain ⟨r, hr⟩ := nameRange_ok hs ht (h.inTree hs).1
  exact ⟨r, (locationOf_iff hs h).mpr (rowanRangeToLsp_iff.mp hr)⟩

/-! ### Positions -/

theorem newlines_split (src : Text) : ∀ (off l s : Nat), (newlines off src)[l]? = some s →
    ∃ a b, src = a ++ b ∧ a.count '\n' = l + 1 ∧ lastLine a = [] ∧ off + bytes a = s := by
  induction src with
  | nil => intro off l s h; simp [newlines] at h
  | cons c cs ih =>
    intro off l s h
    rw [newlines] at h
    have hb := bytes_cons c ([] : Text)
    by_cases hc : c = '\n'
    · subst hc
      simp only [beq_self_eq_true, if_true] at h
      cases l with
      | zero =>
        simp only [List.getElem?_cons_zero, Option.some.injEq] at h
        exact ⟨['\n'], cs, rfl, by simp, by simp [lastLine], by rw [hb]; simp [bytes_nil]; omega⟩
      | succ l =>
        rw [List.getElem?_cons_succ] at h
        obtain ⟨a, b, h1, h2, h3, h4⟩ := ih _ _ _ h
        refine ⟨'\n' :: a, b, by rw [h1]; rfl, by simp [h2], ?_, by rw [bytes_cons]; omega⟩
        have := lastLine_append ['\n'] a
        rw [List.singleton_append] at this
        rw [this, if_neg (by omega), h3]
    · have e : (c == '\n') = false := by simpa using hc
      rw [e] at h
      simp only [Bool.false_eq_true, if_false] at h
      obtain ⟨a, b, h1, h2, h3, h4⟩ := ih _ _ _ h
      refine ⟨c :: a, b, by rw [h1]; rfl, by simp [hc, h2], ?_, by rw [bytes_cons]; omega⟩
      have := lastLine_append [c] a
      rw [List.singleton_append] at this
      rw [this, if_neg (by omega), h3]

/-- A position denotes an offset in the line it names. -/
theorem offsetAt_split {src : Text} {p : Pos} {off : Nat} (h : offsetAt src p = some off) :
    ∃ a b, src = a ++ b ∧ a.count '\n' = p.line ∧ lastLine a = [] ∧ off = bytes a + p.character := by
  unfold offsetAt at h
  obtain ⟨s, h1, rfl⟩ := Option.map_eq_some_iff.mp h
  cases hl : p.line with
  | zero =>
    rw [hl] at h1
    simp only [startOffset, Option.some.injEq] at h1
    subst h1
    exact ⟨[], src, rfl, rfl, rfl, by simp [bytes_nil]⟩
  | succ l =>
    rw [hl] at h1
    obtain ⟨a, b, k1, k2, k3, k4⟩ := newlines_split src 0 l s h1
    exact ⟨a, b, k1, k2, k3, by omega⟩

/-! ### Requests do not panic -/

/-- Answers that are not a panic. -/
def Ans.Ok (a : Ans α) : Prop := ∃ b, a = .done b

theorem Ans.Ok.bind {a : Ans α} {f : α → Ans β} (ha : a.Ok) (hf : ∀ b, a = .done b → (f b).Ok) : (a.bind f).Ok := by
  obtain ⟨b, rfl⟩ := ha; exact hf b rfl

theorem Ans.Ok.bindO {a : Ans (Option α)} {f : α → Ans (Option β)} (ha : a.Ok) (hf : ∀ b, a = .done (some b) → (f b).Ok) : (a.bindO f).Ok := by
  obtain ⟨b, rfl⟩ := ha
  cases b with
  | none => exact ⟨none, rfl⟩
  | some b => exact hf b rfl

theorem ok_done (a : α) : (Ans.done a).Ok := ⟨a, rfl⟩

/-- Positions at which the code finds its way into the tree. -/
theorem found_ok {src : Text} {p : Pos} (h : ∀ off, offsetAt src p = some off → off ≤ (Red.root g).stop) :
    (findMeaningfulToken src (Red.root g) p).Ok := by
  unfold findMeaningfulToken lspPosToRowan
  cases ho : offsetAt src p with
  | none => exact ⟨_, rfl⟩
  | some off =>
    have : ∃ a, (Red.root g).tokenAtOffset off = .done a := by
      unfold Red.tokenAtOffset
      rw [if_pos ⟨Nat.zero_le _, h off ho⟩]
      split <;> exact ⟨_, rfl⟩
    obtain ⟨a, ha⟩ := this
    simp only [ha]
    cases a with
    | none => exact ⟨_, rfl⟩
    | single t => exact ⟨_, rfl⟩
    | between l r =>
      simp only
      split
      · exact ⟨_, rfl⟩
      · split <;> exact ⟨_, rfl⟩

theorem found_mem {src : Text} {p : Pos} {t : Tok} (h : findMeaningfulToken src (Red.root g) p = .done (some t)) :
    t ∈ (Red.root g).tokens := by
  cases ho : lspPosToRowan src p with
  | none => unfold findMeaningfulToken at h; rw [ho] at h; cases h
  | some off => exact (found_token ho h).1

theorem locate_ok (hs : Solid g) {src d : Text} (ht : g.text ++ d = src) {r : DefResp Sym}
    (h : ∀ s ∈ r.toList, ∃ x, IsSym g s x) : (locate src (Red.root g) r).Ok := by
  cases r with
  | scalar s =>
    obtain ⟨x, hx⟩ := h s (by simp [DefResp.toList])
    obtain ⟨l, hl⟩ := location_ok hs ht hx
    exact ⟨.scalar l, by simp only [locate, hl, Ans.bind]⟩
  | array ss =>
    obtain ⟨ls, hl⟩ := mapL_ok (f := locationOf src (Red.root g)) (l := ss) (fun s hsm => by
      obtain ⟨x, hx⟩ := h s hsm
      exact location_ok hs ht hx)
    exact ⟨.array ls, by simp only [locate, hl, Ans.bind]⟩

theorem mem_symbols_of_byKey {t : SymbolTable} {k : Key} {s : Sym} (h : t.byKey k = some s) : s ∈ t.symbols := by
  unfold SymbolTable.byKey at h; exact List.mem_of_find?_eq_some h

theorem findDefs_mem {t : SymbolTable} {k : Key} {ss : List Sym} (h : t.findDefs k = some ss) : ∀ s ∈ ss, s ∈ t.symbols := by
  unfold SymbolTable.findDefs at h
  obtain ⟨l, _, h4⟩ := Option.bind_eq_some_iff.mp h
  obtain ⟨k, _, rfl⟩ := Option.map_eq_some_iff.mp h4
  intro s hsm
  exact (List.mem_filter.mp hsm).1

theorem findParamOrLocalDef_mem {t : SymbolTable} {k : Key} {s : Sym} (h : t.findParamOrLocalDef k = some s) : s ∈ t.symbols := by
  unfold SymbolTable.findParamOrLocalDef at h
  obtain ⟨l, _, h4⟩ := Option.bind_eq_some_iff.mp h
  exact List.mem_of_find?_eq_some h4

theorem findBlockDef_mem {t : SymbolTable} {k : Key} {s : Sym} (h : t.findBlockDef k = some s) : s ∈ t.symbols := by
  unfold SymbolTable.findBlockDef at h
  obtain ⟨l, _, h4⟩ := Option.bind_eq_some_iff.mp h
  obtain ⟨b, _, h5⟩ := Option.bind_eq_some_iff.mp h4
  exact mem_symbols_of_byKey h5

theorem definitions_mem {t : SymbolTable} {k : Key} {r : DefResp Sym} (h : t.definitions k = some r) : ∀ s ∈ r.toList, s ∈ t.symbols := by
  unfold SymbolTable.definitions at h
  cases h1 : t.findParamOrLocalDef k with
  | some s =>
    rw [h1] at h; cases h
    intro s' hsm; simp only [DefResp.toList, List.mem_singleton] at hsm; subst hsm; exact findParamOrLocalDef_mem h1
  | none =>
    rw [h1] at h
    cases h2 : t.findDefs k with
    | some ss => rw [h2] at h; cases h; exact findDefs_mem h2
    | none =>
      rw [h2] at h
      obtain ⟨s, h3, rfl⟩ := Option.map_eq_some_iff.mp h
      intro s' hsm; simp only [DefResp.toList, List.mem_singleton] at hsm; subst hsm; exact findBlockDef_mem h3

section
variable {src d : Text} {p : Pos}

theorem gotoDefinition_ok (hs : Solid g) (ht : g.text ++ d = src) (hp : ∀ off, offsetAt src p = some off → off ≤ (Red.root g).stop) :
    (gotoDefinition src (Red.root g) p).Ok := by
  unfold gotoDefinition
  refine (found_ok hp).bindO fun t _ => ?_
  split
  · exact ok_done _
  · split
    · split
      · exact ok_done _
      · rename_i r hr
        exact (locate_ok hs ht (fun s hsm => (mem_symbols_iff hs).mp (definitions_mem hr s hsm))).bind fun _ _ => ok_done _
    · exact ok_done _

theorem gotoDeclaration_ok (hs : Solid g) (ht : g.text ++ d = src) (hp : ∀ off, offsetAt src p = some off → off ≤ (Red.root g).stop) :
    (gotoDeclaration src (Red.root g) p).Ok := by
  unfold gotoDeclaration
  refine (found_ok hp).bindO fun t _ => ?_
  split
  · exact ok_done _
  · split
    · split
      · exact ok_done _
      · rename_i r hr
        exact (locate_ok hs ht (r := .array r) (fun s hsm => (mem_symbols_iff hs).mp (findDefs_mem hr s hsm))).bind fun _ _ => ok_done _
    · exact ok_done _

theorem sym_toNode (hs : Solid g) {s : Sym} (h : s ∈ (symbolTable (Red.root g)).symbols) :
    ∃ x, IsSym g s x ∧ s.key.toNode (Red.root g) = some x := by
  obtain ⟨x, hx⟩ := (mem_symbols_iff hs).mp h
  exact ⟨x, hx, by rw [(hx.inTree hs).2.1, (hx.inTree hs).1.toNode hs (hx.nonempty hs)]⟩

theorem typeDefs_ok (hs : Solid g) : ∀ {ss : List Sym}, (∀ s ∈ ss, s ∈ (symbolTable (Red.root g)).symbols) →
    ∃ ts, typeDefs (symbolTable (Red.root g)) (Red.root g) ss = .done ts ∧ ∀ s ∈ ts, s ∈ (symbolTable (Red.root g)).symbols
  | [], _ => ⟨[], rfl, by simp⟩
  | s :: ss, h => by
    obtain ⟨x, _, hx⟩ := sym_toNode hs (h s (by simp))
    obtain ⟨ts, h1, h2⟩ := typeDefs_ok hs (ss := ss) (fun s hsm => h s (List.mem_cons_of_mem _ hsm))
    refine ⟨_, by simp only [typeDefs, hx, Ans.ofOption, Ans.bind, h1]; rfl, ?_⟩
    intro s' hsm
    rcases List.mem_append.mp hsm with h3 | h3
    · cases ho : (x.childOf .TYPE_USE).bind fun tu => (tu.childOf .INDEX).bind fun i => (symbolTable (Red.root g)).findDefs i.key with
      | none => rw [ho] at h3; cases h3
      | some l =>
        rw [ho] at h3
        obtain ⟨tu, _, h4⟩ := Option.bind_eq_some_iff.mp ho
        obtain ⟨i, _, h5⟩ := Option.bind_eq_some_iff.mp h4
        exact findDefs_mem h5 s' h3
    · exact h2 s' h3

theorem gotoTypeDefinition_ok (hs : Solid g) (ht : g.text ++ d = src) (hp : ∀ off, offsetAt src p = some off → off ≤ (Red.root g).stop) :
    (gotoTypeDefinition src (Red.root g) p).Ok := by
  unfold gotoTypeDefinition
  refine (found_ok hp).bindO fun t _ => ?_
  split
  · exact ok_done _
  · split
    · split
      · exact ok_done _
      · split
        · split
          · exact ok_done _
          · rename_i r hr
            obtain ⟨ts, h1, h2⟩ := typeDefs_ok hs (findDefs_mem hr)
            refine Ans.Ok.bind ⟨ts, h1⟩ fun ts' hts => ?_
            rw [h1] at hts; cases hts
            exact (locate_ok hs ht (r := .array ts) (fun s hsm => (mem_symbols_iff hs).mp (h2 s hsm))).bind fun _ _ => ok_done _
        · exact ok_done _
    · exact ok_done _

theorem references_mem {t : SymbolTable} {incl : Bool} {k : Key} {ss : List Sym} (h : t.references incl k = some ss) :
    ∀ s ∈ ss, s ∈ t.symbols := by
  have hb : ∀ d, d ∈ t.symbols → ∀ s ∈ t.blockRefs incl d, s ∈ t.symbols := by
    intro d hd s hsm
    unfold SymbolTable.blockRefs at hsm
    rcases List.mem_append.mp hsm with h1 | h1
    · split at h1
      · rw [List.mem_singleton] at h1; subst h1; exact hd
      · cases h1
    · obtain ⟨b, _, h2⟩ := List.mem_filterMap.mp h1
      exact mem_symbols_of_byKey h2
  have hf : ∀ {q : Sym → Bool}, ∀ s ∈ t.symbols.filter q, s ∈ t.symbols := fun s hsm => (List.mem_filter.mp hsm).1
  unfold SymbolTable.references at h
  obtain ⟨cur, h1, h2⟩ := Option.bind_eq_some_iff.mp h
  split at h2
  · cases h2
  · cases h2; exact hb cur (mem_symbols_of_byKey h1)
  · obtain ⟨d, h3, rfl⟩ := Option.map_eq_some_iff.mp h2
    exact hb d (findBlockDef_mem h3)
  · obtain ⟨d, h3, rfl⟩ := Option.map_eq_some_iff.mp h2
    exact hf
  · split at h2
    · cases h2; exact hf
    · split at h2
      · obtain ⟨d, h3, rfl⟩ := Option.map_eq_some_iff.mp h2
        exact hf
      · cases h2

theorem findReferences_ok (hs : Solid g) (ht : g.text ++ d = src) (hp : ∀ off, offsetAt src p = some off → off ≤ (Red.root g).stop)
    (incl : Bool) : (findReferences src (Red.root g) p incl).Ok := by
  unfold findReferences
  refine (found_ok hp).bindO fun t _ => ?_
  split
  · split
    · exact ok_done _
    · split
      · exact ok_done _
      · rename_i r hr
        obtain ⟨ls, hl⟩ := mapL_ok (f := locationOf src (Red.root g)) (l := r) (fun s hsm => by
          obtain ⟨x, hx⟩ := (mem_symbols_iff hs).mp (references_mem hr s hsm)
          exact location_ok hs ht hx)
        exact Ans.Ok.bind ⟨ls, hl⟩ fun _ _ => ok_done _
  · exact ok_done _

theorem prepareRename_ok (hs : Solid g) (ht : g.text ++ d = src) (hp : ∀ off, offsetAt src p = some off → off ≤ (Red.root g).stop) :
    (prepareRename src (Red.root g) p).Ok := by
  unfold prepareRename
  refine (found_ok hp).bindO fun t htm => ?_
  split
  · obtain ⟨r, hr⟩ := tok_range_ok hs ht (found_mem htm)
    rw [hr]
    exact ok_done _
  · exact ok_done _

theorem renamedTokens_ok (hs : Solid g) : ∀ {ss : List Sym}, (∀ s ∈ ss, s ∈ (symbolTable (Red.root g)).symbols) →
    ∃ ts, renamedTokens (Red.root g) ss = .done ts ∧ ∀ t ∈ ts, t ∈ (Red.root g).tokens
  | [], _ => ⟨[], rfl, by simp⟩
  | s :: ss, h => by
    obtain ⟨x, hsym, hx⟩ := sym_toNode hs (h s (by simp))
    obtain ⟨ts, h1, h2⟩ := renamedTokens_ok hs (ss := ss) (fun s hsm => h s (List.mem_cons_of_mem _ hsm))
    refine ⟨_, by simp only [renamedTokens, hx, Ans.ofOption, Ans.bind, h1]; rfl, ?_⟩
    intro t htm
    rcases List.mem_append.mp htm with h3 | h3
    · rw [Option.mem_toList] at h3
      exact tok_mem (hsym.inTree hs).1 (List.mem_of_find?_eq_some h3)
    · exact h2 t h3

theorem rename_ok (hs : Solid g) (ht : g.text ++ d = src) (hp : ∀ off, offsetAt src p = some off → off ≤ (Red.root g).stop)
    (name : Text) : (rename src (Red.root g) p name).Ok := by
  unfold rename
  split
  · refine (found_ok hp).bind fun o _ => ?_
    split
    · split
      · refine Ans.Ok.bind ?_ fun _ _ => ok_done _
        unfold renameImpl
        split
        · exact ok_done _
        · dsimp only
          split
          · exact ok_done _
          · rename_i sym _
            obtain ⟨ts, h1, h2⟩ := renamedTokens_ok hs (ss := (symbolTable (Red.root g)).symbols.filter
              ((symbolTable (Red.root g)).isRenamed sym (Tok.text ‹Tok›))) (fun s hsm => (List.mem_filter.mp hsm).1)
            refine Ans.Ok.bind ⟨ts, h1⟩ fun ts' hts => ?_
            rw [h1] at hts; cases hts
            obtain ⟨es, he⟩ := mapL_ok (f := fun tk : Tok => (Ans.ofOption (rowanRangeToLsp src tk.off tk.stop)).bind fun r =>
              .done (⟨r, name⟩ : TextEdit)) (l := ts) (fun t htm => by
                obtain ⟨r, hr⟩ := tok_range_ok hs ht (h2 t htm)
                exact ⟨⟨r, name⟩, by rw [hr]; rfl⟩)
            exact Ans.Ok.bind ⟨es, he⟩ fun _ _ => ok_done _
      · exact ok_done _
    · exact ok_done _
  · exact ok_done _

end

end Verif
