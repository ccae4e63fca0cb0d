import Verif.Lemmas.CheckNames
import Verif.Lemmas.Root
/-!
Collecting diagnostics does not fail: value types can be read, keys lead back to nodes, and every diagnostic is placed
at a node or a token of the tree.
-/
namespace Verif
open P Spec

variable {g : Green}

/-! ### Answers with a property -/

/-- The answer is there and has the property. -/
def Ans.Post (a : Ans α) (P : α → Prop) : Prop := ∃ b, a = .done b ∧ P b

theorem Ans.Post.bind {a : Ans α} {P : α → Prop} {f : α → Ans β} {Q : β → Prop} (ha : a.Post P)
    (hf : ∀ b, P b → (f b).Post Q) : (a.bind f).Post Q := by
  obtain ⟨b, rfl, hb⟩ := ha; exact hf b hb

theorem post_done {a : α} {P : α → Prop} (h : P a) : (Ans.done a).Post P := ⟨a, rfl, h⟩

theorem Ans.Post.ok {a : Ans α} {P : α → Prop} (h : a.Post P) : a.Ok := by obtain ⟨b, h, _⟩ := h; exact ⟨b, h⟩

theorem Ans.Post.mono {a : Ans α} {P Q : α → Prop} (h : a.Post P) (hpq : ∀ b, P b → Q b) : a.Post Q := by
  obtain ⟨b, h, hb⟩ := h; exact ⟨b, h, hpq b hb⟩

theorem post_mapL {f : α → Ans β} {P : β → Prop} : ∀ {l : List α}, (∀ a ∈ l, (f a).Post P) →
    (Ans.mapL f l).Post fun bs => ∀ b ∈ bs, P b
  | [], _ => post_done (by simp)
  | a :: l, h => by
    refine Ans.Post.bind (h a (by simp)) fun b hb => ?_
    refine Ans.Post.bind (post_mapL (l := l) fun x hx => h x (by simp [hx])) fun bs hbs => ?_
    exact post_done fun x hx => by
      rcases List.mem_cons.mp hx with rfl | hx
      · exact hb
      · exact hbs x hx

/-! ### Value types -/

/-- The token of a value type node. -/
def ValTok (k : Kind) (t : Text) : Prop := TokenShape k t ∧ (k = .NUM_TYPE ∨ k = .VEC_TYPE ∨ k = .REF_TYPE)

/-- All value type nodes inside are readable. -/
def ValOk (g : Green) : Prop := ∀ n ∈ g.nodes, n.1 = .VAL_TYPE → ∃ k t, n.2 = [.tok k t] ∧ ValTok k t

theorem parse_valOk {dbg : Bool} {src : Text} {errs : List Err} {dropped : Text} (h : parse dbg src = .tree g errs dropped) :
    ValOk g := by
  obtain ⟨a, b, c, s1, s2, rfl, hR, _, _, hb, _⟩ := (parse_tree (I := invVal) trivial h).ex
  intro n hn hv
  rw [Green.nodes, nodesL_append, hb.nodesL, List.append_nil] at hn
  rcases List.mem_cons.mp hn with rfl | hn
  · cases hv
  · exact hR _ hn hv

theorem parse_root_green {dbg : Bool} {src : Text} {errs : List Err} {dropped : Text} (h : parse dbg src = .tree g errs dropped) :
    (Red.root g).green = g := by
  obtain ⟨a, b, c, s1, s2, rfl, _⟩ := (parse_tree (I := invVal) trivial h).ex
  rfl

theorem nodes_sub {c : Green} : ∀ {cs : List Green}, c ∈ cs → ∀ n ∈ c.nodes, n ∈ Green.nodesL cs
  | d :: cs, h, n, hn => by
    rw [Green.nodesL, List.mem_append]
    rcases List.mem_cons.mp h with rfl | h
    · exact .inl hn
    · exact .inr (nodes_sub h n hn)

theorem ValOk.child {g c : Green} (h : ValOk g) (hc : c ∈ g.children) : ValOk c := by
  cases g with
  | tok k t => simp [Green.children] at hc
  | node k cs =>
    intro n hn
    exact h n (by rw [Green.nodes, List.mem_cons]; exact .inr (nodes_sub hc n hn))

theorem Red.green_child {r c : Red} (h : c ∈ r.children) : c.green ∈ r.green.children := by
  obtain ⟨h1, _⟩ := Red.mem_children.mp h
  obtain ⟨a, b, e, _⟩ := h1
  simp only [Red.green, Green.children]
  rw [e]; simp

theorem InTree.valOk (h0 : ValOk g) (hr : (Red.root g).green = g) {x : Red} (h : InTree g x) : ValOk x.green := by
  suffices H : ∀ n (x : Red), x.up.length = n → InTree g x → ValOk x.green from H _ x rfl h
  intro n
  induction n with
  | zero =>
    intro x hl hx
    have hu := List.length_eq_zero_iff.mp hl
    have hc := inTree_iff.mp hx
    rw [hu] at hc
    have e : x = Red.root g := by
      cases x; simp only at hu; subst hu; simp only [Chained] at hc; subst hc; rfl
    rw [e, hr]; exact h0
  | succ n ih =>
    intro x hl hx
    have hp : ∃ p, x.parent = some p ∧ p.up.length = n := by
      unfold Red.parent
      cases hu : x.up with
      | nil => simp [hu] at hl
      | cons f up => exact ⟨⟨f, up⟩, rfl, by simpa [hu] using hl⟩
    obtain ⟨p, hp, hpl⟩ := hp
    obtain ⟨h1, h2⟩ := hx.parent hp
    exact (ih p hpl h1).child (Red.green_child h2)

theorem valTypeOf_ok {n : Red} (h : ValOk n.green) (hk : n.kind = .VAL_TYPE) : (valTypeOf n).Ok := by
  obtain ⟨k, t, e, hs, hk'⟩ := h (n.kind, n.self.cs) (by unfold Red.green; simp [Green.nodes, Red.kind]) hk
  have e' : n.self.cs = [.tok k t] := e
  have ct : n.childToks = [⟨k, t, n.self.off, n.self :: n.up⟩] := by
    unfold Red.childToks Red.els
    rw [e']; simp [childEls]
  unfold valTypeOf Red.token
  rw [ct]
  rcases hk' with rfl | rfl | rfl
  · simp only [List.find?_cons, beq_self_eq_true]
    simp only [TokenShape, List.mem_cons, List.not_mem_nil, or_false] at hs
    unfold numTypeNamed
    rcases hs with h | h | h | h <;> subst h <;> exact ⟨_, rfl⟩
  · simp only [List.find?_cons]
    exact ⟨_, rfl⟩
  · simp only [List.find?_cons]
    simp only [TokenShape, List.mem_cons, List.not_mem_nil, or_false] at hs
    unfold refTypeNamed
    rcases hs with h | h <;> subst h <;> exact ⟨_, rfl⟩

theorem mem_childOf {r c : Red} {k : Kind} (h : r.childOf k = some c) : c ∈ r.children ∧ c.kind = k := by
  unfold Red.childOf at h
  exact ⟨List.mem_of_find?_eq_some h, by simpa using List.find?_some h⟩

theorem paramTypes_ok {p : Red} (h : ValOk p.green) : (paramTypes p).Ok := by
  unfold paramTypes
  split
  · rename_i name ty _ h2
    obtain ⟨h3, h4⟩ := mem_childOf h2
    exact (valTypeOf_ok (h.child (Red.green_child h3)) h4).bind fun _ _ => ok_done _
  · refine Ans.Ok.bind (mapL_ok fun c hc => ?_) fun _ _ => ok_done _
    obtain ⟨h3, h4⟩ := mem_childrenOf.mp hc
    exact valTypeOf_ok (h.child (Red.green_child h3)) h4

theorem root_green_children (g : Green) : ∀ c ∈ (Red.root g).green.children, c ∈ g.children := by
  intro c hc; exact hc

theorem extractSig_ok {g : Green} (h : ValOk g) : (extractSig g).Ok := by
  have child : ∀ {c k}, c ∈ (Red.root g).childrenOf k → ValOk c.green := fun hc =>
    h.child (root_green_children g _ (Red.green_child (mem_childrenOf.mp hc).1))
  unfold extractSig
  refine Ans.Ok.bind (mapL_ok fun p hp => paramTypes_ok (child hp)) fun _ _ => ?_
  refine Ans.Ok.bind (mapL_ok fun v hv => ?_) fun _ _ => ok_done _
  obtain ⟨r, hr, hv⟩ := List.mem_flatMap.mp hv
  obtain ⟨h3, h4⟩ := mem_childrenOf.mp hv
  exact valTypeOf_ok ((child hr).child (Red.green_child h3)) h4

theorem getFuncSig_ok (hs : Solid g) (h0 : ValOk g) (hr : (Red.root g).green = g) {s : Sym} (h : s ∈ (symbolTable (Red.root g)).symbols) :
    (getFuncSig (symbolTable (Red.root g)) (Red.root g) s).Ok := by
  have hg : ∀ {s}, s ∈ (symbolTable (Red.root g)).symbols → ValOk s.green := by
    intro s hsm
    obtain ⟨x, hx, _⟩ := sym_toNode hs hsm
    rw [(hx.inTree hs).2.2]
    exact (hx.inTree hs).1.valOk h0 hr
  unfold getFuncSig
  split
  · exact ok_done _
  · rename_i tu htu
    split
    · exact (extractSig_ok ((hg h).child (List.mem_of_find?_eq_some htu))).bind fun _ _ => ok_done _
    · obtain ⟨x, hx, e⟩ := sym_toNode hs h
      rw [e]
      refine Ans.Ok.bind (ok_done x) fun n _ => ?_
      split
      · exact ok_done _
      · split
        · exact ok_done _
        · rename_i ft hft
          obtain ⟨d, hd, hf⟩ := Option.bind_eq_some_iff.mp hft
          obtain ⟨ds, hds, hd⟩ := Option.bind_eq_some_iff.mp hd
          have hm := findDefs_mem hds d (List.mem_of_mem_head? hd)
          exact (extractSig_ok ((hg hm).child (List.mem_of_find?_eq_some hf))).bind fun _ _ => ok_done _

/-! ### Places of diagnostics -/

/-- The range of a node or a token of the tree. -/
def Place (g : Green) (a b : Nat) : Prop :=
  (∃ n, InTree g n ∧ a = n.start ∧ b = n.stop) ∨ ∃ t ∈ (Red.root g).tokens, a = t.off ∧ b = t.stop

/-- The diagnostic and what is related to it are placed in the tree. -/
def Placed (g : Green) (d : RawDiag) : Prop := Place g d.start d.stop ∧ ∀ p ∈ d.related, Place g p.1 p.2

theorem Place.range (hs : Solid g) {src d : Text} (ht : g.text ++ d = src) {a b : Nat} (h : Place g a b) :
    ∃ r, rowanRangeToLsp src a b = some r := by
  rcases h with ⟨n, hn, rfl, rfl⟩ | ⟨t, hm, rfl, rfl⟩
  · exact node_range_ok hs ht hn
  · exact tok_range_ok hs ht hm

theorem placed_node {n : Red} (h : InTree g n) (m : DiagMsg) : Placed g (nodeDiag n m) :=
  ⟨.inl ⟨n, h, rfl, rfl⟩, by simp [nodeDiag]⟩

theorem toDiag_ok (hs : Solid g) {src d : Text} (ht : g.text ++ d = src) {r : RawDiag} (h : Placed g r) : (toDiag src r).Ok := by
  obtain ⟨q, hq⟩ := h.1.range hs ht
  unfold toDiag
  rw [hq]
  refine Ans.Ok.bind (ok_done q) fun _ _ => ?_
  refine Ans.Ok.bind (mapL_ok fun p hp => ?_) fun _ _ => ok_done _
  obtain ⟨q, hq⟩ := (h.2 p hp).range hs ht
  rw [hq]
  exact ok_done _

theorem sym_place (hs : Solid g) {s : Sym} (h : s ∈ (symbolTable (Red.root g)).symbols) : Place g s.key.start s.key.stop := by
  obtain ⟨x, hx, _⟩ := sym_toNode hs h
  obtain ⟨h1, h2, _⟩ := hx.inTree hs
  rw [h2]
  exact .inl ⟨x, h1, rfl, rfl⟩

theorem checkUndef_placed (hs : Solid g) : ∀ d ∈ checkUndef (symbolTable (Red.root g)), Placed g d := by
  intro d hd
  unfold checkUndef at hd
  obtain ⟨s, hsm, rfl⟩ := List.mem_map.mp hd
  exact ⟨sym_place hs (List.mem_filter.mp hsm).1, by simp⟩

theorem identRange_post (hs : Solid g) {s : Sym} (h : s ∈ (symbolTable (Red.root g)).symbols) :
    (identRange (Red.root g) s).Post fun p => Place g p.1 p.2 := by
  obtain ⟨x, hx, e⟩ := sym_toNode hs h
  unfold identRange
  rw [e]
  refine Ans.Post.bind (P := fun y => InTree g y) (post_done (hx.inTree hs).1) fun n hn => ?_
  split
  · rename_i t ht
    exact post_done (.inr ⟨t, tok_mem hn (List.mem_of_find?_eq_some ht), rfl, rfl⟩)
  · exact post_done (sym_place hs h)

theorem dupDiag_post (hs : Solid g) {s : Sym} (h : s ∈ (symbolTable (Red.root g)).symbols) (name : Text) {l : List Sym}
    (hl : ∀ o ∈ l, o ∈ (symbolTable (Red.root g)).symbols) : (dupDiag (Red.root g) s name l).Post (Placed g) :=
  Ans.Post.bind (identRange_post hs h) fun _ hr =>
    Ans.Post.bind (post_mapL fun o ho => identRange_post hs (hl o ho)) fun _ hrs => post_done ⟨hr, hrs⟩

theorem outer_mem {t : SymbolTable} {name : Text} : ∀ {fuel : Nat} {k : Key}, ∀ o ∈ t.outerNamesakes name fuel k, o ∈ t.symbols
  | 0, k, o, h => by simp [SymbolTable.outerNamesakes] at h
  | fuel + 1, k, o, h => by
    simp only [SymbolTable.outerNamesakes] at h
    split at h
    · cases h
    · rename_i p hp
      split at h
      · rcases List.mem_append.mp h with h | h
        · split at h
          · rw [List.mem_singleton] at h; subst h
            exact mem_symbols_of_byKey hp
          · cases h
        · exact outer_mem o h
      · cases h

theorem checkDup_post (hs : Solid g) : (checkDup (symbolTable (Red.root g)) (Red.root g)).Post fun l => ∀ d ∈ l, Placed g d := by
  have one : ∀ {d : RawDiag}, Placed g d → ∀ x ∈ [d], Placed g x := by
    intro d hd x hx; rw [List.mem_singleton] at hx; subst hx; exact hd
  refine Ans.Post.bind (post_mapL (P := fun l => ∀ d ∈ l, Placed g d) fun s hsm => ?_) fun a ha => ?_
  · unfold checkScope
    split
    · split
      · exact post_done (by simp)
      · split
        · exact Ans.Post.bind (dupDiag_post hs hsm _ fun o ho =>
            (List.mem_filter.mp (List.mem_filter.mp ho).1).1) fun d hd => post_done (one hd)
        · exact post_done (by simp)
    · exact post_done (by simp)
  · refine Ans.Post.bind (post_mapL (P := fun l => ∀ d ∈ l, Placed g d) fun s hsm => ?_) fun b hb => ?_
    · unfold checkLabel
      split
      · split
        · exact post_done (by simp)
        · dsimp only
          split
          · refine Ans.Post.bind (dupDiag_post hs hsm _ fun o ho => ?_) fun d hd => post_done (one hd)
            rcases List.mem_append.mp ho with ho | ho
            · exact outer_mem o ho
            · exact (List.mem_filter.mp ho).1
          · exact post_done (by simp)
      · exact post_done (by simp)
    · refine post_done fun d hd => ?_
      rcases List.mem_append.mp hd with hd | hd <;> obtain ⟨l, hl, hd⟩ := List.mem_flatten.mp hd
      · exact ha l hl d hd
      · exact hb l hl d hd

theorem checkModules_placed {n : Red} (h : InTree g n) : ∀ d ∈ checkModules n, Placed g d := by
  intro d hd
  unfold checkModules at hd
  obtain ⟨m, hm, rfl⟩ := List.mem_map.mp hd
  exact placed_node (h.child (mem_childrenOf.mp (List.mem_of_mem_drop hm)).1) _

theorem tokens_sub {n : Red} (hn : InTree g n) {t : Tok} (h : t ∈ n.tokens) : t ∈ (Red.root g).tokens := by
  obtain ⟨p, hp, ht⟩ := Red.mem_tokens.mp h
  exact tok_mem (hn.descendant hp) ht

theorem checkLiterals_placed {n : Red} (h : InTree g n) : ∀ d ∈ checkLiterals n, Placed g d := by
  intro d hd
  unfold checkLiterals at hd
  split at hd
  · cases hd
  · obtain ⟨l, hl, hd⟩ := List.mem_flatten.mp hd
    obtain ⟨p, hp, rfl⟩ := List.mem_map.mp hl
    have ho := h.child (mem_childrenOf.mp (List.of_mem_zip hp).2).1
    unfold checkLiteral at hd
    split at hd
    · cases hd
    · rename_i t ht
      split at hd
      · cases hd
      · rw [List.mem_singleton] at hd; subst hd
        exact ⟨.inr ⟨t, tokens_sub ho (List.mem_of_mem_head? ht), rfl, rfl⟩, by simp⟩

theorem firstDef_mem {t : SymbolTable} {n : Red} {s : Sym} (h : t.firstDef n = some s) : s ∈ t.symbols := by
  obtain ⟨ds, hds, hd⟩ := Option.bind_eq_some_iff.mp h
  exact findDefs_mem hds s (List.mem_of_mem_head? hd)

section
variable (hs : Solid g) (h0 : ValOk g) (hr : (Red.root g).green = g)
include hs h0 hr

theorem resolveType_ok (n : Red) : (resolveType (symbolTable (Red.root g)) (Red.root g) n).Ok := by
  unfold resolveType
  split
  · split
    · exact ok_done _
    · split
      · split
        · exact ok_done _
        · rename_i f hf
          obtain ⟨o, _, hf⟩ := Option.bind_eq_some_iff.mp hf
          exact (getFuncSig_ok hs h0 hr (firstDef_mem hf)).bind fun _ _ => ok_done _
      · split
        · exact ok_done _
        · split <;> exact ok_done _
  · exact ok_done _

/-- Expected types refer to places of the tree. -/
def ExpOk (g : Green) (ps : List Expected) : Prop := ∀ p ∈ ps, ∀ r, p.2 = some r → Place g r.1 r.2

theorem expectedTypes_post (n : Red) : (expectedTypes (symbolTable (Red.root g)) (Red.root g) n).Post
    fun o => ∀ ps, o = some ps → ExpOk g ps := by
  unfold expectedTypes
  split
  · exact post_done (by simp)
  · split
    · split
      · exact post_done (by simp)
      · rename_i f hf
        obtain ⟨o, _, hf⟩ := Option.bind_eq_some_iff.mp hf
        obtain ⟨x, hx, e⟩ := sym_toNode hs (firstDef_mem hf)
        rw [e]
        refine Ans.Post.bind (P := fun _ => True) (post_done trivial) fun fn _ => ?_
        obtain ⟨sig, hsig⟩ := getFuncSig_ok hs h0 hr (firstDef_mem hf)
        rw [hsig]
        refine post_done ?_
        intro ps hps
        obtain ⟨s, _, rfl⟩ := Option.map_eq_some_iff.mp hps
        intro p hp r hpr
        have := (List.of_mem_zip hp).2
        rw [hpr] at this
        obtain ⟨q, hq, he⟩ := List.mem_map.mp this
        cases he
        unfold paramRanges at hq
        obtain ⟨s, hsm, rfl⟩ := List.mem_map.mp hq
        have hsm := (List.mem_filter.mp hsm).1
        unfold SymbolTable.declaredParamsAndLocals at hsm
        exact sym_place hs (List.mem_filter.mp hsm).1
    · refine post_done fun ps hps => ?_
      obtain ⟨m, _, rfl⟩ := Option.map_eq_some_iff.mp hps
      intro p hp r hpr
      obtain ⟨q, _, rfl⟩ := List.mem_map.mp hp
      cases hpr

omit hs h0 hr in
theorem mismatches_placed {ps : List Expected} {rs : List (OpType × Red)} (hp : ExpOk g ps) (hrs : ∀ r ∈ rs, InTree g r.2) :
    ∀ d ∈ mismatches ps rs, Placed g d := by
  intro d hd
  unfold mismatches at hd
  obtain ⟨⟨⟨e, rel⟩, r, n⟩, hm, hd⟩ := List.mem_filterMap.mp hd
  have hz := List.of_mem_zip hm
  split at hd
  · rename_i e' rel' r' n' heq
    cases heq
    split at hd
    · cases hd
    · cases hd
      refine ⟨.inl ⟨n, hrs _ hz.2, rfl, rfl⟩, fun p hpm => ?_⟩
      simp only [Option.mem_toList] at hpm
      exact hp _ hz.1 p hpm
  · cases hd

theorem checkFolded_post {n : Red} (hn : InTree g n) : (checkFolded (symbolTable (Red.root g)) (Red.root g) n).Post
    fun l => ∀ d ∈ l, Placed g d := by
  unfold checkFolded
  split
  · exact post_done (by simp)
  · split
    · exact post_done (by simp)
    · rename_i name _ _
      refine Ans.Post.bind (post_mapL (P := fun r : List (OpType × Red) × List RawDiag =>
        (∀ x ∈ r.1, InTree g x.2) ∧ ∀ d ∈ r.2, Placed g d) fun o ho => ?_) fun ops hops => ?_
      · have hot := hn.child (mem_childrenOf.mp (List.mem_of_mem_drop ho)).1
        unfold operandTypes
        split
        · rename_i i _
          obtain ⟨ty, hty⟩ := resolveType_ok hs h0 hr i
          rw [hty]
          cases ty with
          | none => exact post_done ⟨by simp, by simp⟩
          | some tys =>
            refine post_done ⟨fun x hx => ?_, by simp⟩
            obtain ⟨_, _, rfl⟩ := List.mem_map.mp hx
            exact hot
        · refine post_done ⟨by simp, fun d hd => ?_⟩
          dsimp only at hd
          split at hd
          · rw [List.mem_singleton] at hd; subst hd; exact placed_node hot _
          · cases hd
      · have hd2 : ∀ d ∈ ops.flatMap (·.2), Placed g d := by
          intro d hd
          obtain ⟨r, hr, hd⟩ := List.mem_flatMap.mp hd
          exact (hops r hr).2 d hd
        refine Ans.Post.bind (expectedTypes_post hs h0 hr n) fun o ho => ?_
        cases o with
        | none => exact post_done hd2
        | some ps =>
          refine post_done fun d hd => ?_
          rcases List.mem_append.mp hd with hd | hd
          · exact hd2 d hd
          · unfold checkReceived at hd
            dsimp only at hd
            rcases List.mem_append.mp hd with hd | hd
            · split at hd
              · rw [List.mem_singleton] at hd; subst hd; exact placed_node hn _
              · cases hd
            · refine mismatches_placed (ho ps rfl) (fun x hx => ?_) d hd
              obtain ⟨r, hr, hx⟩ := List.mem_flatMap.mp hx
              exact (hops r hr).1 x hx

theorem stackStep_post {n : Red} (hn : InTree g n) {st : List (OpType × Red)} (hst : ∀ x ∈ st, InTree g x.2) :
    (stackStep (symbolTable (Red.root g)) (Red.root g) n st).Post
      fun r => (∀ x ∈ r.1, InTree g x.2) ∧ ∀ d ∈ r.2, Placed g d := by
  unfold stackStep
  refine Ans.Post.bind (expectedTypes_post hs h0 hr n) fun o ho => ?_
  cases o with
  | none => exact post_done ⟨hst, by simp⟩
  | some ps =>
    dsimp only
    obtain ⟨ty, hty⟩ := resolveType_ok hs h0 hr n
    rw [hty]
    refine post_done ⟨fun x hx => ?_, fun d hd => ?_⟩
    · rcases List.mem_append.mp hx with hx | hx
      · exact hst x (List.mem_of_mem_take hx)
      · obtain ⟨_, _, rfl⟩ := List.mem_map.mp hx
        exact hn
    · rcases List.mem_append.mp hd with hd | hd
      · generalize (if (n.token .L_PAREN).isSome = true then 0 else ps.length) = e at hd
        split at hd
        · rw [List.mem_singleton] at hd; subst hd; exact placed_node hn _
        · cases hd
      · exact mismatches_placed (ho ps rfl) (fun x hx => hst x (List.mem_of_mem_drop hx)) d hd

theorem stackRun_post : ∀ {ns : List Red} {st : List (OpType × Red)}, (∀ n ∈ ns, InTree g n) → (∀ x ∈ st, InTree g x.2) →
    (stackRun (symbolTable (Red.root g)) (Red.root g) ns st).Post fun l => ∀ d ∈ l, Placed g d
  | [], _, _, _ => post_done (by simp)
  | n :: ns, st, hns, hst => by
    unfold stackRun
    split
    · refine Ans.Post.bind (stackStep_post hs h0 hr (hns n (by simp)) hst) fun r hr' => ?_
      refine Ans.Post.bind (stackRun_post (fun m hm => hns m (by simp [hm])) hr'.1) fun ds hds => ?_
      refine post_done fun d hd => ?_
      rcases List.mem_append.mp hd with hd | hd
      · exact hr'.2 d hd
      · exact hds d hd
    · exact stackRun_post (fun m hm => hns m (by simp [hm])) hst

theorem checkNode_post {n : Red} (hn : InTree g n) : (checkNode (symbolTable (Red.root g)) (Red.root g) n).Post
    fun l => ∀ d ∈ l, Placed g d := by
  have stacked : (checkStacked (symbolTable (Red.root g)) (Red.root g) n).Post fun l => ∀ d ∈ l, Placed g d := by
    unfold checkStacked
    dsimp only
    split
    · exact post_done (by simp)
    · exact stackRun_post hs h0 hr (fun m hm => hn.child (List.mem_filter.mp hm).1) (by simp)
  unfold checkNode
  split
  · exact post_done (checkModules_placed hn)
  · exact stacked
  · exact stacked
  · refine Ans.Post.bind (checkFolded_post hs h0 hr hn) fun ds hds => post_done fun d hd => ?_
    rcases List.mem_append.mp hd with hd | hd
    · exact checkLiterals_placed hn d hd
    · exact hds d hd
  · exact post_done (by simp)

/-- The checkers succeed and place what they find in the tree. -/
theorem checkRaw_post : (checkRaw (Red.root g)).Post fun l => ∀ d ∈ l, Placed g d := by
  unfold checkRaw
  dsimp only
  refine Ans.Post.bind (post_mapL fun n hn => checkNode_post hs h0 hr hn) fun ds hds => ?_
  refine Ans.Post.bind (checkDup_post hs) fun dups hdups => post_done fun d hd => ?_
  simp only [List.mem_append] at hd
  rcases hd with (hd | hd) | hd
  · obtain ⟨l, hl, hd⟩ := List.mem_flatten.mp hd
    exact hds l hl d hd
  · exact checkUndef_placed hs d hd
  · exact hdups d hd

end

end Verif
