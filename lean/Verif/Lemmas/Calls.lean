import Verif.Model.Calls
import Verif.Lemmas.DocNest
import Verif.Lemmas.Outline
import Verif.Lemmas.Rename
import Verif.Lemmas.DiagOk
/-!
Helper lemmas for the call hierarchy.
-/
namespace Verif
open Spec

variable {g : Green}

/-! ### Generic -/

theorem filter_flatMap {f : α → List β} {p : β → Bool} : ∀ {l : List α}, (l.flatMap f).filter p = l.flatMap fun a => (f a).filter p
  | [] => rfl
  | a :: l => by rw [List.flatMap_cons, List.flatMap_cons, List.filter_append, filter_flatMap]

theorem filterMap_flatMap {f : α → List β} {p : β → Option γ} : ∀ {l : List α},
    (l.flatMap f).filterMap p = l.flatMap fun a => (f a).filterMap p
  | [] => rfl
  | a :: l => by rw [List.flatMap_cons, List.flatMap_cons, List.filterMap_append, filterMap_flatMap]

theorem flatMap_nil {f : α → List β} : ∀ {l : List α}, (∀ a ∈ l, f a = []) → l.flatMap f = []
  | [], _ => rfl
  | a :: l, h => by
    rw [List.flatMap_cons, h a (by simp), flatMap_nil fun b hb => h b (List.mem_cons_of_mem _ hb)]; rfl

theorem flatMap_congr {f f' : α → List β} : ∀ {l : List α}, (∀ a ∈ l, f a = f' a) → l.flatMap f = l.flatMap f'
  | [], _ => rfl
  | a :: l, h => by
    rw [List.flatMap_cons, List.flatMap_cons, h a (by simp), flatMap_congr fun b hb => h b (List.mem_cons_of_mem _ hb)]

/-- The nodes below a node are a contiguous part of the nodes of the tree. -/
theorem descendants_split : ∀ (x : Red), InTree g x → ∃ a b, (Red.root g).descendants = a ++ x.descendants ++ b := by
  refine InTree.induction ⟨[], [], by simp⟩ ?_
  rintro p c hp ⟨a, b, e⟩ hc
  obtain ⟨l, r, hl⟩ := List.append_of_mem hc
  refine ⟨a ++ p :: l.flatMap Red.descendants, r.flatMap Red.descendants ++ b, ?_⟩
  rw [e, Red.descendants_eq p, hl, List.flatMap_append, List.flatMap_cons]
  simp [List.append_assoc]

/-- A class of node kinds closed under children covers all nodes below. -/
theorem kinds_below (hs : Solid g) {P : Kind → Bool} (hP : ∀ k, P k = true → ∀ k' ∈ allowed k, k' ∉ junk → P k' = true) {x : Red}
    (hx : InTree g x) (h : P x.kind = true) : ∀ y, InTree g y → y ∈ x.descendants → P y.kind = true := by
  intro y hy hm
  have : x ∈ y.ancestors := (hx.mem_descendants hy).mp hm
  clear hm
  revert hy this
  revert y
  have key : ∀ y, InTree g y → (x ∈ y.ancestors → P y.kind = true) := by
    refine InTree.induction ?_ ?_
    · intro hm
      rw [Red.ancestors_eq] at hm
      rcases List.mem_cons.mp hm with rfl | hm
      · exact h
      · cases hm
    · intro p c hp ih hc hm
      rw [Red.ancestors_eq, Red.parent_of_child hc] at hm
      rcases List.mem_cons.mp hm with rfl | hm
      · exact h
      · exact hP _ (ih hm) _ (hp.child_kind hs hc) (node_kind hs (hp.child hc))
  exact key

/-! ### Where calls and functions are -/

/-- Kinds of nodes that are in no export or start field. -/
def inFunc : Kind → Bool
  | .ROOT | .MODULE | .MODULE_FIELD_START | .EXPORT_DESC_FUNC | .MODULE_FIELD_EXPORT => false
  | _ => true

/-- Kinds of nodes below an imported function. -/
def inImport (k : Kind) : Bool :=
  k ∈ [Kind.IMPORT_DESC_TYPE_USE, .TYPE_USE, .PARAM, .RESULT, .VAL_TYPE, .INDEX] || (allowed k).isEmpty

theorem inFunc_closed : ∀ k, inFunc k = true → ∀ k' ∈ allowed k, k' ∉ junk → inFunc k' = true := by
  intro k; cases k <;> decide

theorem inImport_closed : ∀ k, inImport k = true → ∀ k' ∈ allowed k, k' ∉ junk → inImport k' = true := by
  intro k; cases k <;> decide

/-- A reference to a function inside a function is an operand of an instruction. -/
theorem call_operand (hs : Solid g) {f x : Red} (hf : InTree g f) (hk : inFunc f.kind = true) (hx : InTree g x)
    (hm : x ∈ f.descendants) (hr : RefersTo x .func) (hne : x ≠ f) : ∃ p, x.parent = some p ∧ p.kind = .PLAIN_INSTR ∧ p ∈ f.descendants := by
  have hxa := (hf.mem_descendants hx).mp hm
  rw [Red.ancestors_eq] at hxa
  rcases List.mem_cons.mp hxa with e | hxa
  · exact absurd e.symm hne
  have fin : ∀ {p}, x.parent = some p → InTree g p ∧ p ∈ f.descendants := by
    intro p hp
    rw [hp] at hxa
    have := (hx.parent hp).1
    exact ⟨this, (hf.mem_descendants this).mpr hxa⟩
  rcases refersTo_elim hr with ⟨p, t, h1, h2, _⟩ | ⟨p, h1, h2, _⟩
  · exact ⟨p, h1, h2, (fin h1).2⟩
  · exfalso
    have := kinds_below hs inFunc_closed hf hk p (fin h1).1 (fin h1).2
    revert h2 this
    generalize p.kind = k
    cases k <;> decide

/-- Two module fields or imports with the same range are the same. -/
theorem field_range_inj (hs : Solid g) {d d' : Red} (hd : InTree g d) (hd' : InTree g d') (h : (fieldSpace d.kind).isSome)
    (h' : (fieldSpace d'.kind).isSome) (h1 : d.start = d'.start) (h2 : d.stop = d'.stop) : d = d' := by
  have key : ∀ {d d' : Red}, InTree g d → InTree g d' → (fieldSpace d.kind).isSome → (fieldSpace d'.kind).isSome →
      ¬ d.StrictlyBelow d' := by
    intro d d' hd hd' h h' hb
    have hm := StrictlyBelow.mem_ancestors hb
    rw [Red.ancestors_eq] at hm
    rcases List.mem_cons.mp hm with e | hm
    · subst e; exact StrictlyBelow.irrefl hb
    · cases hp : d.parent with
      | none => rw [hp] at hm; cases hm
      | some p =>
        rw [hp] at hm
        replace hm : d' ∈ p.ancestors := hm
        have hpt := (hd.parent hp).1
        have hmod : ∀ {q : Red}, InTree g q → q.kind = .MODULE → d' ∈ q.ancestors → False := by
          intro q hq hqk hm
          have hqc := hq.module_kind hs hqk
          rw [Red.ancestors_eq, Red.parent_of_child hqc] at hm
          rcases List.mem_cons.mp hm with e | hm
          · subst e; rw [hqk] at h'; cases h'
          · replace hm : d' ∈ (Red.root g).ancestors := hm
            rw [Red.ancestors_eq] at hm
            rcases List.mem_cons.mp hm with e | hm
            · subst e; rw [root_kind hs] at h'; cases h'
            · cases hm
        rcases field_parent (hd.parent_kind hs hp) h with ⟨_, hk⟩ | ⟨_, hk⟩
        · exact hmod hpt hk hm
        · rw [Red.ancestors_eq] at hm
          rcases List.mem_cons.mp hm with e | hm
          · subst e; rw [hk] at h'; cases h'
          · cases hq : p.parent with
            | none => rw [hq] at hm; cases hm
            | some q =>
              rw [hq] at hm
              refine hmod (hpt.parent hq).1 ?_ hm
              have := hpt.parent_kind hs hq
              rw [hk] at this
              exact import_parent this
  have hpos : ∀ {d : Red}, InTree g d → (fieldSpace d.kind).isSome → d.start < d.stop := by
    intro d hd h
    obtain ⟨sp, hsp⟩ := Option.isSome_iff_exists.mp h
    exact hd.lt_stop hs (class_nonempty (symClass_field hsp))
  have := hpos hd h
  rcases hd.nested hd' with e | e | e | e | e
  · exact e
  · exact absurd e (key hd hd' h h')
  · exact absurd e (key hd' hd h' h)
  · omega
  · omega

/-! ### Lists of answers -/

theorem filterMapL_flatMap {f : α → Ans (Option β)} {q : β → Bool} {u : β → γ} {w : α → List γ} : ∀ {l : List α} {bs : List β},
    Ans.filterMapL f l = .done bs → (∀ a ∈ l, ∀ o, f a = .done o → (o.toList.filter q).map u = w a) →
    (bs.filter q).map u = l.flatMap w
  | [], bs, h, _ => by simp only [Ans.filterMapL] at h; cases h; rfl
  | a :: l, bs, h, hw => by
    simp only [Ans.filterMapL] at h
    obtain ⟨o, ho, h⟩ := bind_done h
    obtain ⟨bs', hb, h⟩ := bind_done h
    cases h
    rw [List.filter_append, List.map_append, List.flatMap_cons, hw a (by simp) o ho,
      filterMapL_flatMap hb fun b hb => hw b (List.mem_cons_of_mem _ hb)]

theorem mapL_flatMap {f : α → Ans β} {v : β → List γ} {w : α → List γ} : ∀ {l : List α} {bs : List β},
    Ans.mapL f l = .done bs → (∀ a ∈ l, ∀ b, f a = .done b → v b = w a) → bs.flatMap v = l.flatMap w
  | [], bs, h, _ => by simp only [Ans.mapL] at h; cases h; rfl
  | a :: l, bs, h, hw => by
    simp only [Ans.mapL] at h
    obtain ⟨b, hb, h⟩ := bind_done h
    obtain ⟨bs', hbs, h⟩ := bind_done h
    cases h
    rw [List.flatMap_cons, List.flatMap_cons, hw a (by simp) b hb, mapL_flatMap hbs fun b hb => hw b (List.mem_cons_of_mem _ hb)]

/-- Of a symbol that occurs once. -/
theorem once_flatMap {l : List Sym} (hd : l.Pairwise fun s s' => s.key ≠ s'.key) {x : Sym} (hx : x ∈ l)
    (p : Sym → Bool) (v : γ) : (l.filter p).flatMap (fun s => if s.key = x.key then [v] else []) = if p x then [v] else [] := by
  obtain ⟨a, b, rfl⟩ := List.append_of_mem hx
  rw [List.pairwise_append, List.pairwise_cons] at hd
  have ha : ∀ y ∈ a, y.key ≠ x.key := fun y hy => hd.2.2 y hy x (by simp)
  have hb : ∀ y ∈ b, y.key ≠ x.key := fun y hy => (hd.2.1.1 y hy).symm
  rw [List.filter_append, List.flatMap_append, flatMap_nil (l := a.filter p), List.nil_append, List.filter_cons]
  · split
    · rw [List.flatMap_cons, if_pos rfl, flatMap_nil]
      · rfl
      · intro y hy; exact if_neg (hb y (List.mem_filter.mp hy).1)
    · rw [flatMap_nil]
      intro y hy; exact if_neg (hb y (List.mem_filter.mp hy).1)
  · intro y hy; exact if_neg (ha y (List.mem_filter.mp hy).1)

/-! ### Items -/

theorem callItem_done (hs : Solid g) {src : Text} {s : Sym} {d : Red} (h : IsSym g s d) {i : CallItem}
    (hi : callItem src (Red.root g) s = .done i) : i.name = symbolName s ∧ IsRange src (d.start, d.stop) i.range ∧
      IsRange src (nameRange d) i.selection := by
  unfold callItem at hi
  obtain ⟨det, _, hi⟩ := bind_done hi
  obtain ⟨r, h1, hi⟩ := bind_done hi
  obtain ⟨sel, h2, hi⟩ := bind_done hi
  cases hi
  refine ⟨rfl, ?_, (locationOf_iff hs h).mp h2⟩
  have := rowanRangeToLsp_iff.mp (ofOption_done h1)
  rw [(h.inTree hs).2.1] at this
  exact this

/-- The symbol of a function. -/
theorem func_sym (hs : Solid g) {s : Sym} {d : Red} (h : IsSym g s d) (hk : s.kind = .func) :
    InTree g d ∧ (fieldSpace d.kind).isSome ∧ s.key = d.key ∧ ∃ m k, m ∈ (Red.root g).children ∧ (fields m)[k]? = some d ∧
      fieldSpace d.kind = some .func ∧ s = fieldSymOf d m .func k := by
  obtain ⟨m, k, h1, h2, h3, h4⟩ := field_sym (sp := .func) h hk rfl
  exact ⟨(h.inTree hs).1, by rw [h3]; rfl, (h.inTree hs).2.1, m, k, h1, h2, h3, h4⟩

theorem func_item_range (hs : Solid g) {src : Text} {s s' : Sym} {d d' : Red} (h : IsSym g s d) (h' : IsSym g s' d')
    (hk : s.kind = .func) (hk' : s'.kind = .func) {r : Range} (hr : IsRange src (d.start, d.stop) r) {r' : Range}
    (hr' : IsRange src (d'.start, d'.stop) r') : r' = r ↔ s'.key = s.key := by
  obtain ⟨h1, h2, h3, _⟩ := func_sym hs h hk
  obtain ⟨h1', h2', h3', _⟩ := func_sym hs h' hk'
  constructor
  · rintro rfl
    have := isRange_inj hr hr'
    rw [Prod.mk.injEq] at this
    rw [h3, h3', field_range_inj hs h1 h1' h2 h2' this.1 this.2]
  · intro e
    rw [(h'.key_inj hs h e).1] at hr'
    exact Option.some.inj ((isRange_eq hr').symm.trans (isRange_eq hr))

theorem funcAt_eq (hs : Solid g) {s : Sym} {d : Red} (h : IsSym g s d) (hk : s.kind = .func) :
    (symbolTable (Red.root g)).funcAt d.start d.stop = some s := by
  obtain ⟨h1, h2, h3, _⟩ := func_sym hs h hk
  have hsome : ((symbolTable (Red.root g)).funcAt d.start d.stop).isSome := by
    unfold SymbolTable.funcAt
    rw [List.find?_isSome]
    exact ⟨s, (mem_symbols_iff hs).mpr ⟨d, h⟩, by rw [hk, h3]; simp [Red.key]⟩
  obtain ⟨t, ht⟩ := Option.isSome_iff_exists.mp hsome
  have h4 := List.find?_some ht
  simp only [Bool.and_eq_true, beq_iff_eq] at h4
  obtain ⟨y, hy⟩ := (mem_symbols_iff hs).mp (List.mem_of_find?_eq_some ht)
  obtain ⟨k1, k2, k3, _⟩ := func_sym hs hy h4.1.1
  have := field_range_inj hs k1 h1 k2 h2 (by have := h4.1.2; rw [k3] at this; exact this) (by have := h4.2; rw [k3] at this; exact this)
  subst this
  rw [ht, hy.det hs h]

theorem funcAt_some {a b : Nat} (hs : Solid g) {s : Sym} (h : (symbolTable (Red.root g)).funcAt a b = some s) :
    ∃ d, IsSym g s d ∧ s.kind = .func ∧ d.start = a ∧ d.stop = b := by
  have h4 := List.find?_some h
  simp only [Bool.and_eq_true, beq_iff_eq] at h4
  obtain ⟨y, hy⟩ := (mem_symbols_iff hs).mp (List.mem_of_find?_eq_some h)
  obtain ⟨k1, k2, k3, _⟩ := func_sym hs hy h4.1.1
  exact ⟨y, hy, h4.1.1, by have := h4.1.2; rw [k3] at this; exact this, by have := h4.2; rw [k3] at this; exact this⟩

/-! ### Calls -/

/-- The symbol `c` is a call of the function `s`. -/
def callsTo (s c : Sym) : Bool := c.kind == .call && c.idx.isDefinedBy s.idx && s.region == c.region

theorem call_sym (hs : Solid g) {c : Sym} (h : c ∈ (symbolTable (Red.root g)).symbols) (hk : c.kind = .call) :
    ∃ x r i, IsRef g x r .func i ∧ c = refSymOf x r .func i := by
  obtain ⟨x, hx⟩ := (mem_symbols_iff hs).mp h
  cases hx with
  | module => cases hk
  | @field m _ k sp _ _ _ => cases sp <;> cases hk
  | @slot f _ j _ _ _ => exfalso; revert hk; dsimp only; split <;> intro hk <;> cases hk
  | @ref _ r sp i h1 h2 h3 h4 =>
    have : sp = .func := by cases sp <;> first | rfl | cases hk
    subst this
    exact ⟨x, r, i, ⟨h1, h2, h3, h4⟩, rfl⟩
  | block => cases hk

/-- What a plain instruction refers to, by its operands. -/
theorem instrRefs_byKey (hs : Solid g) {p : Red} (hp : InTree g p) (hk : p.kind = .PLAIN_INSTR) (q : Sym → Bool)
    (hq : ∀ c, q c = true → c.kind = .call) :
    (instrRefs p).filter q = p.children.flatMap fun o => ((symbolTable (Red.root g)).byKey o.key).toList.filter q := by
  have mem : ∀ {o c}, o ∈ p.children → (symbolTable (Red.root g)).byKey o.key = some c → q c = true → c ∈ instrRefs p ∧
      ∃ r i, IsRef g o r .func i ∧ c = refSymOf o r .func i := by
    intro o c ho hc hqc
    obtain ⟨h1, x, hx⟩ := byKey_some hs hc
    obtain ⟨y, r, i, hr, e⟩ := call_sym hs ((mem_symbols_iff hs).mpr ⟨x, hx⟩) (hq c hqc)
    have hyo : y = o := by
      refine InTree.key_inj hs hr.tree (hp.child ho) ?_ (by rw [operand_kind hs hp hk ho]; rfl)
      rw [← h1, e]; rfl
    subst hyo
    refine ⟨(mem_instrRefs hs hp hk).mpr ⟨y, .func, r, i, ho, hr.refers, hr.scope, hr.idx, e⟩, r, i, hr, e⟩
  have empty : (∀ c ∈ instrRefs p, q c = false) → (instrRefs p).filter q =
      p.children.flatMap fun o => ((symbolTable (Red.root g)).byKey o.key).toList.filter q := by
    intro h
    rw [List.filter_eq_nil_iff.mpr (fun c hc => by rw [h c hc]; decide), flatMap_nil]
    intro o ho
    rw [List.filter_eq_nil_iff]
    intro c hc hqc
    rw [Option.mem_toList] at hc
    rw [h c (mem ho hc hqc).1] at hqc
    cases hqc
  cases hb : p.instrName.bind instrRef with
  | none => refine empty ?_; unfold instrRefs; rw [hb]; intro c hc; cases hc
  | some q' =>
    obtain ⟨kind, scope, all⟩ := q'
    cases hr : p.enclosing scope with
    | none => refine empty ?_; unfold instrRefs; rw [hb]; simp only [hr]; intro c hc; cases hc
    | some r =>
      by_cases hkc : kind = .call ∧ all = true
      · obtain ⟨rfl, rfl⟩ := hkc
        have e : instrRefs p = p.children.filterMap fun c => refSymbol c r.key .call := by
          unfold instrRefs; rw [hb]; simp only [hr, if_true]
        have e2 : p.children.filterMap (fun c => refSymbol c r.key .call) =
            p.children.flatMap fun o => (refSymbol o r.key .call).toList := by
          generalize p.children = l
          induction l with
          | nil => rfl
          | cons a l ih => rw [List.filterMap_cons, List.flatMap_cons, ← ih]; cases refSymbol a r.key .call <;> rfl
        have e3 := e.trans e2
        rw [e3, filter_flatMap]
        refine flatMap_congr fun o ho => ?_
        cases hsy : refSymbol o r.key .call with
        | some c =>
          have hc : c ∈ instrRefs p := by
            rw [e]; exact List.mem_filterMap.mpr ⟨o, ho, hsy⟩
          obtain ⟨x, sp, r', i, h1, h2, h3, h4, h5⟩ := (mem_instrRefs hs hp hk).mp hc
          have : c ∈ (symbolTable (Red.root g)).symbols :=
            (mem_symbols_iff hs).mpr ⟨x, by rw [h5]; exact .ref (hp.child h1) h2 h3 h4⟩
          have hb := byKey_eq hs this
          rw [refSymbol_key hsy] at hb
          rw [hb]
        | none =>
          symm
          show List.filter q _ = []
          rw [List.filter_eq_nil_iff]
          intro c hc hqc
          rw [Option.mem_toList] at hc
          obtain ⟨_, r', i, hr', _⟩ := mem ho hc hqc
          rw [refSymbol_eq, hr'.idx] at hsy
          cases hsy
      · refine empty ?_
        intro c hc
        cases hqc : q c with
        | false => rfl
        | true =>
          exfalso
          have hck := hq c hqc
          unfold instrRefs at hc
          rw [hb] at hc
          simp only [hr] at hc
          obtain ⟨name, _, hir⟩ := Option.bind_eq_some_iff.mp hb
          obtain ⟨sp, h1, h2, h3, h4⟩ := (instrRef_iff _ _ _ _).mp hir
          have hkind : c.kind = kind := by
            split at hc
            · obtain ⟨o, _, ho⟩ := List.mem_filterMap.mp hc
              rw [refSymbol_eq] at ho
              obtain ⟨i, _, rfl⟩ := Option.map_eq_some_iff.mp ho
              rfl
            · rw [Option.mem_toList] at hc
              obtain ⟨o, _, ho⟩ := Option.bind_eq_some_iff.mp hc
              rw [refSymbol_eq] at ho
              obtain ⟨i, _, rfl⟩ := Option.map_eq_some_iff.mp ho
              rfl
          have hkc1 : kind = .call := hkind.symm.trans hck
          apply hkc
          refine ⟨hkc1, ?_⟩
          cases all with
          | true => rfl
          | false =>
            exfalso
            have hn := h4.mp rfl
            subst hn
            have : sp = .table := instrSpace_fun h1 (by decide)
            subst this
            rw [hkc1] at h2
            cases h2

theorem defKind_func {k : SymKind} (h : k.defKind = some .func) : k = .call := by
  cases k <;> first | rfl | cases h

/-- The definitions of an operand, narrowed to one function. -/
theorem operand_defs (hs : Solid g) {sg : Sym} (hsg : sg ∈ (symbolTable (Red.root g)).symbols) (hk : sg.kind = .func) (key : Key) (v : γ) :
    ((((symbolTable (Red.root g)).findDefs key).getD []).filter fun s => s.kind == .func).flatMap
        (fun s => if s.key = sg.key then [v] else []) =
      (((symbolTable (Red.root g)).byKey key).toList.filter (callsTo sg)).map fun _ => v := by
  unfold SymbolTable.findDefs
  cases hb : (symbolTable (Red.root g)).byKey key with
  | none => rfl
  | some c =>
    simp only [Option.bind_some, Option.toList_some]
    cases hd : c.kind.defKind with
    | none =>
      have : callsTo sg c = false := by
        unfold callsTo
        cases hck : c.kind <;> first | rfl | (rw [hck] at hd; cases hd)
      rw [List.filter_cons_of_neg (by rw [this]; decide)]
      rfl
    | some kind =>
      simp only [Option.map_some, Option.getD_some, List.filter_filter]
      rw [once_flatMap (symbols_distinct hs) hsg]
      have e : (sg.kind == .func && (sg.region == c.region && sg.kind == kind && c.idx.isDefinedBy sg.idx)) = callsTo sg c := by
        unfold callsTo
        rw [hk]
        by_cases hkf : kind = .func
        · subst hkf
          rw [defKind_func hd]
          generalize c.idx.isDefinedBy sg.idx = a
          generalize (sg.region == c.region) = b
          cases a <;> cases b <;> rfl
        · have h1 : (SymKind.func == kind) = false := by rw [beq_eq_false_iff_ne]; exact fun e => hkf e.symm
          have h2 : (c.kind == SymKind.call) = false := by
            rw [beq_eq_false_iff_ne]
            intro e
            rw [e] at hd
            exact hkf (Option.some.inj hd).symm
          rw [h1, h2]
          simp
      rw [e, List.filter_cons]
      cases callsTo sg c <;> rfl

/-- The range of a node. -/
def rangeOf (src : Text) (n : Red) : Range := (rowanRangeToLsp src n.start n.stop).getD ⟨⟨0, 0⟩, ⟨0, 0⟩⟩

theorem children_operands (hs : Solid g) {p : Red} (hp : InTree g p) (hk : p.kind = .PLAIN_INSTR) : p.childrenOf .OPERAND = p.children := by
  unfold Red.childrenOf
  rw [List.filter_eq_self]
  intro o ho
  rw [operand_kind hs hp hk ho]; rfl

theorem filterMap_flatten {f : α → Option (List β)} : ∀ {l : List α}, (l.filterMap f).flatten = l.flatMap fun a => (f a).getD []
  | [] => rfl
  | a :: l => by
    rw [List.flatMap_cons, ← filterMap_flatten, List.filterMap_cons]
    cases f a <;> simp

/-- The calls of `sg` that an instruction makes. -/
def siteRanges (src : Text) (sg : Sym) (p : Red) : List (List Range) :=
  ((instrRefs p).filter (callsTo sg)).map fun _ => [rangeOf src p]

theorem callsTo_kind {sg c : Sym} (h : callsTo sg c = true) : c.kind = .call := by
  unfold callsTo at h
  rw [Bool.and_eq_true, Bool.and_eq_true, beq_iff_eq] at h
  exact h.1.1

theorem entries_flat (rg : Range) : ∀ es : List CallEntry, es.flatMap (fun e => if e.item.range = rg then [e.ranges] else []) =
    (es.filter fun e => e.item.range == rg).map CallEntry.ranges
  | [] => rfl
  | e :: es => by
    rw [List.flatMap_cons, entries_flat rg es, List.filter_cons]
    by_cases he : e.item.range = rg
    · rw [if_pos he, if_pos (by rw [he]; exact beq_self_eq_true _)]; rfl
    · rw [if_neg he, if_neg (by rw [beq_iff_eq]; exact he)]; rfl

theorem outgoingEntries_eq (hs : Solid g) {src : Text} {sg : Sym} {d : Red} (hd : IsSym g sg d) (hk : sg.kind = .func)
    {rg : Range} (hr : IsRange src (d.start, d.stop) rg) {p : Red} (hp : InTree g p) (hpk : p.kind = .PLAIN_INSTR) {es : List CallEntry}
    (h : outgoingEntries src (Red.root g) p = .done es) :
    (es.filter fun e => e.item.range == rg).map CallEntry.ranges = siteRanges src sg p := by
  unfold outgoingEntries at h
  obtain ⟨r, hrp, h⟩ := bind_done h
  have hrp : rangeOf src p = r := by unfold rangeOf; rw [ofOption_done hrp]; rfl
  have hsg := (mem_symbols_iff hs).mpr ⟨d, hd⟩
  have key : es.flatMap (fun e => if e.item.range = rg then [e.ranges] else []) =
      (((p.childrenOf .OPERAND).filterMap fun o => (symbolTable (Red.root g)).findDefs o.key).flatten.filter fun s =>
        s.kind == .func).flatMap fun s => if s.key = sg.key then [[r]] else [] := by
    refine mapL_flatMap h ?_
    intro s hsm b hb
    obtain ⟨hsm, hsk⟩ := List.mem_filter.mp hsm
    rw [beq_iff_eq] at hsk
    obtain ⟨ds, hds, hs1⟩ := List.mem_flatten.mp hsm
    obtain ⟨o, _, ho⟩ := List.mem_filterMap.mp hds
    have hsS : s ∈ (symbolTable (Red.root g)).symbols := by
      unfold SymbolTable.findDefs at ho
      obtain ⟨c, _, hc⟩ := Option.bind_eq_some_iff.mp ho
      obtain ⟨k, _, rfl⟩ := Option.map_eq_some_iff.mp hc
      exact (List.mem_filter.mp hs1).1
    obtain ⟨y, hy⟩ := (mem_symbols_iff hs).mp hsS
    obtain ⟨i, hi, hb⟩ := bind_done hb
    cases hb
    have h3 := func_item_range hs hd hy hk hsk hr (callItem_done hs hy hi).2.1
    simp only [h3]
  rw [← entries_flat, key, children_operands hs hp hpk, filterMap_flatten, filter_flatMap]
  unfold siteRanges
  rw [instrRefs_byKey hs hp hpk _ (fun c => callsTo_kind), List.map_flatMap, List.flatMap_assoc, hrp]
  exact flatMap_congr fun o _ => operand_defs hs hsg hk _ _

theorem lspRange_eq {src : Text} {ab : Nat × Nat} {r : Range} (h : IsRange src ab r) (hle : ab.1 ≤ ab.2) :
    lspRangeToRowan src r = .done (some ab) := by
  obtain ⟨⟨u, v, h1, h2, h3⟩, u', v', h4, h5, h6⟩ := h
  unfold lspRangeToRowan
  have e1 : offsetAt src r.start = some ab.1 := by rw [h3, ← h2]; conv => lhs; rw [h1]
                                                   exact offsetAt_eq u v
  have e2 : offsetAt src r.stop = some ab.2 := by rw [h6, ← h5]; conv => lhs; rw [h4]
                                                  exact offsetAt_eq u' v'
  rw [e1, e2]
  exact if_pos hle

theorem flatten_filter_map {q : β → Bool} {u : β → γ} : ∀ l : List (List β),
    (l.flatten.filter q).map u = l.flatMap fun a => (a.filter q).map u
  | [] => rfl
  | a :: l => by rw [List.flatten_cons, List.filter_append, List.map_append, flatten_filter_map l, List.flatMap_cons]

/-- The call sites of one function in another. -/
theorem outgoing_eq (hs : Solid g) {src : Text} {sf sg : Sym} {f d : Red} (hf : IsSym g sf f) (hfk : sf.kind = .func)
    (hd : IsSym g sg d) (hk : sg.kind = .func) {rf rg : Range} (hrf : IsRange src (f.start, f.stop) rf)
    (hrg : IsRange src (d.start, d.stop) rg) {os : List CallEntry} (h : outgoingCalls src (Red.root g) rf = .done (some os)) :
    (os.filter fun e => e.item.range == rg).map CallEntry.ranges =
      (f.descendants.filter fun p => p.kind == .PLAIN_INSTR).flatMap (siteRanges src sg) := by
  have hft := (hf.inTree hs).1
  unfold outgoingCalls at h
  rw [lspRange_eq hrf f.start_le_stop] at h
  obtain ⟨x, hx, h⟩ := bindO_some h
  cases hx
  simp only [funcAt_eq hs hf hfk, (hf.inTree hs).2.1, hft.toNode hs (hf.nonempty hs), Ans.ofOption, Ans.bind] at h
  split at h
  · rename_i es hes
    cases h
    have key : es.flatMap (fun l => (l.filter fun e => e.item.range == rg).map CallEntry.ranges) =
        (f.descendants.filter fun n => n.kind == .PLAIN_INSTR && isCall n).flatMap (siteRanges src sg) := by
      refine mapL_flatMap hes ?_
      intro p hp b hb
      obtain ⟨hp1, hp2⟩ := List.mem_filter.mp hp
      rw [Bool.and_eq_true, beq_iff_eq] at hp2
      exact outgoingEntries_eq hs hd hk hrg (hft.descendant hp1) hp2.1 hb
    rw [flatten_filter_map, key]
    have e2 : ∀ l : List Red, (∀ p ∈ l, InTree g p) →
        (l.filter fun n => n.kind == .PLAIN_INSTR && isCall n).flatMap (siteRanges src sg) =
          (l.filter fun p => p.kind == .PLAIN_INSTR).flatMap (siteRanges src sg) := by
      intro l
      induction l with
      | nil => intro _; rfl
      | cons p l ih =>
        intro hl
        have ih := ih fun q hq => hl q (List.mem_cons_of_mem _ hq)
        rw [List.filter_cons, List.filter_cons]
        by_cases hpk : p.kind = .PLAIN_INSTR
        · rw [hpk]
          simp only [beq_self_eq_true, Bool.true_and, if_true]
          cases hc : isCall p with
          | true => rw [if_pos rfl, List.flatMap_cons, List.flatMap_cons, ih]
          | false =>
            rw [if_neg (by decide), List.flatMap_cons, ih]
            have : siteRanges src sg p = [] := by
              unfold siteRanges
              rw [List.map_eq_nil_iff, List.filter_eq_nil_iff]
              intro c hcm hct
              have hp := hl p (List.mem_cons_self ..)
              obtain ⟨x, sp, r, i, h1, h2, h3, h4, h5⟩ := (mem_instrRefs hs hp hpk).mp hcm
              have : sp = .func := by
                have := callsTo_kind hct
                rw [h5] at this
                cases sp <;> first | rfl | cases this
              subst this
              rcases refersTo_elim h2 with ⟨p', t, k1, k2, k3, k4, _⟩ | ⟨p', k1, k2, _⟩
              · rw [Red.parent_of_child h1] at k1; cases k1
                have htm : t ∈ p.childToks ∧ t.kind = .INSTR_NAME := by
                  unfold Red.token at k3
                  have := List.find?_some k3
                  rw [beq_iff_eq] at this
                  exact ⟨List.mem_of_find?_eq_some k3, this⟩
                have : isCall p = true := by
                  unfold isCall
                  rw [List.any_eq_true]
                  refine ⟨t, htm.1, ?_⟩
                  rw [htm.2]
                  have : t.text = t!"call" ∨ t.text = t!"ref.func" ∨ t.text = t!"return_call" := by
                    revert k4
                    simp [instrSpace]
                  rcases this with e | e | e <;> rw [e] <;> decide
                rw [this] at hc; cases hc
              · rw [Red.parent_of_child h1] at k1; cases k1
                rw [hpk] at k2; cases k2
            rw [this]; rfl
        · have e : (p.kind == Kind.PLAIN_INSTR) = false := by rw [beq_eq_false_iff_ne]; exact hpk
          rw [e]
          simp only [Bool.false_and, Bool.false_eq_true, if_false]
          exact ih
    exact e2 _ fun p hp => hft.descendant hp
  · cases h

/-! ### Incoming calls -/

open Classical in
/-- The range of the instruction of a call, if the call is in the function `f`. -/
noncomputable def siteIn (src : Text) (root f : Red) (c : Sym) : List (List Range) :=
  match c.key.toNode root with
  | none => []
  | some x => if x.enclosing (· == .MODULE_FIELD_FUNC) = some f then (x.parent.map fun p => [rangeOf src p]).toList else []

theorem byKey_func (hs : Solid g) {s : Sym} {d : Red} (h : IsSym g s d) (hk : s.kind = .func) :
    ((symbolTable (Red.root g)).symbols.find? fun s => s.kind == .func && s.key == d.key) = some s := by
  have hsome : ((symbolTable (Red.root g)).symbols.find? fun s => s.kind == .func && s.key == d.key).isSome := by
    rw [List.find?_isSome]
    exact ⟨s, (mem_symbols_iff hs).mpr ⟨d, h⟩, by rw [hk, (h.inTree hs).2.1]; simp⟩
  obtain ⟨t, ht⟩ := Option.isSome_iff_exists.mp hsome
  have h1 := List.find?_some ht
  simp only [Bool.and_eq_true, beq_iff_eq] at h1
  obtain ⟨y, hy⟩ := (mem_symbols_iff hs).mp (List.mem_of_find?_eq_some ht)
  rw [ht, (hy.key_inj hs h (h1.2.trans (h.inTree hs).2.1.symm)).2]

/-- Every function field has a symbol. -/
theorem func_has_sym (hs : Solid g) {f : Red} (hf : InTree g f) {sp : Space} (hk : fieldSpace f.kind = some sp) :
    ∃ m k, m ∈ (Red.root g).children ∧ (fields m)[k]? = some f ∧ IsSym g (fieldSymOf f m sp k) f := by
  obtain ⟨m, hm, hfm⟩ := hf.in_module hs (by intro e; rw [e] at hk; cases hk)
  have : f ∈ fields m := List.mem_filter.mpr ⟨hfm, by rw [hk]; rfl⟩
  obtain ⟨k, hk'⟩ := List.getElem?_of_mem this
  exact ⟨m, k, hm, hk', .field hm hk' hk⟩

theorem incomingEntry_eq (hs : Solid g) {src : Text} {sf c : Sym} {f : Red} (hf : IsSym g sf f) (hfk : sf.kind = .func)
    {rf : Range} (hrf : IsRange src (f.start, f.stop) rf) (hc : c ∈ (symbolTable (Red.root g)).symbols) (hck : c.kind = .call)
    {o : Option CallEntry} (h : incomingEntry src (Red.root g) c = .done o) :
    (o.toList.filter fun e => e.item.range == rf).map CallEntry.ranges = siteIn src (Red.root g) f c := by
  obtain ⟨x, hx, hxn⟩ := sym_toNode hs hc
  obtain ⟨hxt, _, _⟩ := hx.inTree hs
  unfold siteIn
  rw [hxn]
  simp only
  unfold incomingEntry callerOf at h
  rw [hxn] at h
  simp only [Ans.ofOption, Ans.bind, Ans.bindO] at h
  cases he : x.enclosing (· == .MODULE_FIELD_FUNC) with
  | none =>
    rw [he] at h
    simp only [Option.bind_none] at h
    cases h
    rw [if_neg (by intro h; cases h)]
    rfl
  | some f' =>
    rw [he] at h
    simp only [Option.bind_some] at h
    unfold Red.enclosing at he
    have hk' : f'.kind = .MODULE_FIELD_FUNC := by
      have := List.find?_some he
      rwa [beq_iff_eq] at this
    have hf't : InTree g f' := hxt.ancestor (List.mem_of_find?_eq_some he)
    obtain ⟨m, k, hm, hmk, hsy⟩ := func_has_sym hs hf't (sp := .func) (by rw [hk']; rfl)
    rw [byKey_func hs hsy rfl] at h
    simp only [Option.map_some] at h
    obtain ⟨rs, hrs, h⟩ := bind_done h
    obtain ⟨i, hi, h⟩ := bind_done h
    cases h
    have hiff := func_item_range hs hf hsy hfk rfl hrf (callItem_done hs hsy hi).2.1
    have hp : ∃ p, x.parent = some p := by
      refine hxt.parent_some hs ?_
      intro e
      have := hx.cls hs
      rw [e] at this
      cases this
    obtain ⟨p, hp⟩ := hp
    unfold callRanges at hrs
    rw [hp] at hrs
    obtain ⟨r, hr, hrs⟩ := bind_done hrs
    cases hrs
    have hr : rangeOf src p = r := by unfold rangeOf; rw [ofOption_done hr]; rfl
    rw [hp]
    simp only [Option.toList_some, List.filter_cons, List.filter_nil, Option.map_some, hr, Option.some.injEq]
    by_cases hff : f' = f
    · rw [if_pos (congrArg some hff)]
      subst hff
      rw [if_pos (by rw [beq_iff_eq]; exact hiff.mpr (by rw [hsy.det hs hf]))]
      rfl
    · rw [if_neg (fun e => hff (Option.some.inj e)), if_neg]
      · rfl
      · rw [beq_iff_eq]
        intro e
        exact hff (hsy.key_inj hs hf (hiff.mp e)).1

theorem siteIn_some {src : Text} {f x : Red} {c : Sym} (h : c.key.toNode (Red.root g) = some x)
    (hne : siteIn src (Red.root g) f c ≠ []) : x.enclosing (· == .MODULE_FIELD_FUNC) = some f := by
  unfold siteIn at hne
  rw [h] at hne
  simp only at hne
  split at hne
  · assumption
  · exact absurd rfl hne

/-- A call in a function is a symbol of an instruction of it. -/
theorem call_in_func (hs : Solid g) {f x r : Red} {i : Index} (h : IsRef g x r .func i) (hf : InTree g f)
    (hk : f.kind = .MODULE_FIELD_FUNC) (hm : f ∈ x.ancestors) : ∃ p ∈ f.descendants, p.kind = .PLAIN_INSTR ∧ x.parent = some p ∧
      refSymOf x r .func i ∈ instrRefs p := by
  have hmem := (hf.mem_descendants h.tree).mpr hm
  obtain ⟨p, h1, h2, h3⟩ := call_operand hs hf (by rw [hk]; rfl) h.tree hmem h.refers (by
    rintro rfl
    rcases refersTo_kind hs hf h.refers with e | e <;> rw [hk] at e <;> cases e)
  exact ⟨p, h3, h2, h1, (mem_instrRefs hs (hf.descendant h3) h2).mpr ⟨x, .func, r, i, (h.tree.parent h1).2, h.refers, h.scope, h.idx, rfl⟩⟩

theorem symsFrom_calls (hs : Solid g) (q : Sym → Bool) (hq : ∀ c, q c = true → c.kind = .call) : ∀ (l : List Red) (id : Nat),
    (∀ n ∈ l, InTree g n) → (∀ n ∈ l, inFunc n.kind = true) →
    (symsFrom id l).filter q = (l.filter fun p => p.kind == .PLAIN_INSTR).flatMap fun p => (instrRefs p).filter q
  | [], _, _, _ => rfl
  | n :: l, id, hl, hf => by
    rw [symsFrom, List.filter_append, symsFrom_calls hs q hq l _ (fun m hm => hl m (List.mem_cons_of_mem _ hm))
      (fun m hm => hf m (List.mem_cons_of_mem _ hm)), List.filter_cons]
    have hn := hl n (List.mem_cons_self ..)
    by_cases hk : n.kind = .PLAIN_INSTR
    · rw [if_pos (by rw [hk]; rfl), List.flatMap_cons]
      have : symsOf id n = instrRefs n := by unfold symsOf; rw [hk]
      rw [this]
    · rw [if_neg (by rw [beq_iff_eq]; exact hk)]
      have : (symsOf id n).filter q = [] := by
        rw [List.filter_eq_nil_iff]
        intro c hc hqc
        have hck := hq c hqc
        unfold symsOf at hc
        have hnf := hf n (List.mem_cons_self ..)
        split at hc
        · rw [Option.mem_toList] at hc
          obtain ⟨_, _, rfl⟩ := Option.map_eq_some_iff.mp hc
          cases hck
        · exact absurd (by assumption) hk
        · rw [Option.mem_toList] at hc
          obtain ⟨_, _, rfl⟩ := Option.map_eq_some_iff.mp hc
          cases hck
        · rw [Option.mem_toList] at hc
          obtain ⟨_, _, rfl⟩ := Option.map_eq_some_iff.mp hc
          cases hck
        · rw [Option.mem_toList] at hc
          obtain ⟨_, _, rfl⟩ := Option.map_eq_some_iff.mp hc
          cases hck
        · split at hc
          · rename_i sk hsk
            have hskc : sk ≠ .call := by
              intro e
              subst e
              revert hsk
              generalize n.kind = k
              cases k <;> decide
            rcases List.mem_append.mp hc with hc | hc
            · rw [Option.mem_toList] at hc
              have : c.kind = sk := by
                split at hc
                · obtain ⟨_, _, rfl⟩ := Option.map_eq_some_iff.mp hc; rfl
                · obtain ⟨_, _, rfl⟩ := Option.map_eq_some_iff.mp hc; rfl
              exact hskc (this.symm.trans hck)
            · split at hc
              · obtain ⟨j, x, _, rfl⟩ := (mem_funcLocals hs hn).mp hc
                revert hck
                dsimp only
                split <;> intro e <;> cases e
              · cases hc
          · split at hc
            · rename_i sk hsk
              rw [Option.mem_toList] at hc
              obtain ⟨x, sp, r, i, h1, h2, h3, h4, h5⟩ := (mem_indexRef hsk).mp hc
              have : sp = .func := by
                rw [h5] at hck
                cases sp <;> first | rfl | cases hck
              subst this
              rcases refersTo_elim h2 with ⟨p', t, k1, k2, k3, k4, _⟩ | ⟨p', k1, k2, _⟩
              · rw [Red.parent_of_child h1] at k1; cases k1
                exact hk k2
              · rw [Red.parent_of_child h1] at k1; cases k1
                revert k2 hnf
                generalize n.kind = k
                cases k <;> decide
            · cases hc
      rw [this]; rfl

theorem enclosing_func (hs : Solid g) {f x : Red} (hx : InTree g x) (hf : InTree g f) (hk : f.kind = .MODULE_FIELD_FUNC)
    (hm : f ∈ x.ancestors) (he : mayBeEmpty x.kind = false) : x.enclosing (· == .MODULE_FIELD_FUNC) = some f := by
  unfold Red.enclosing
  have hsome : (x.ancestors.find? fun a => a.kind == .MODULE_FIELD_FUNC).isSome := by
    rw [List.find?_isSome]; exact ⟨f, hm, by rw [hk]; rfl⟩
  obtain ⟨f', hf'⟩ := Option.isSome_iff_exists.mp hsome
  rw [hf']
  have hk' : f'.kind = .MODULE_FIELD_FUNC := by
    have := List.find?_some hf'
    rwa [beq_iff_eq] at this
  have hm' := List.mem_of_find?_eq_some hf'
  have ht' := hx.ancestor hm'
  obtain ⟨m, h1, h2⟩ := hf.in_module hs (by rw [hk]; decide)
  obtain ⟨m', h1', h2'⟩ := ht'.in_module hs (by rw [hk']; decide)
  have hmt := InTree.child (InTree.root g) h1
  have hmt' := InTree.child (InTree.root g) h1'
  have := module_ancestor_unique h1 h1' (Red.ancestors_trans hm ((hmt.mem_descendants hf).mp h2))
    (Red.ancestors_trans hm' ((hmt'.mem_descendants ht').mp h2'))
  subst this
  have hmf : f ∈ fields m := List.mem_filter.mpr ⟨h2, by rw [hk]; rfl⟩
  have hmf' : f' ∈ fields m := List.mem_filter.mpr ⟨h2', by rw [hk']; rfl⟩
  have w := hx.within hm
  have w' := hx.within hm'
  have p := hx.lt_stop hs he
  rcases pairwise_mem (fields_order hs h1) hmf hmf' with e | e | e
  · rw [e]
  · omega
  · omega

theorem func_kind {k : Kind} (h : fieldSpace k = some .func) : k = .MODULE_FIELD_FUNC ∨ k = .IMPORT_DESC_TYPE_USE := by
  revert h; cases k <;> decide

/-- The calls of one function made from another. -/
theorem incoming_eq (hs : Solid g) {src : Text} {sf sg : Sym} {f d : Red} (hf : IsSym g sf f) (hfk : sf.kind = .func)
    (hd : IsSym g sg d) (hk : sg.kind = .func) {rf rg : Range} (hrf : IsRange src (f.start, f.stop) rf)
    (hrg : IsRange src (d.start, d.stop) rg) {is : List CallEntry} (h : incomingCalls src (Red.root g) rg = .done (some is)) :
    (is.filter fun e => e.item.range == rf).map CallEntry.ranges =
      (f.descendants.filter fun p => p.kind == .PLAIN_INSTR).flatMap (siteRanges src sg) := by
  unfold incomingCalls at h
  rw [lspRange_eq hrg d.start_le_stop] at h
  obtain ⟨ab, hx, h⟩ := bindO_some h
  cases hx
  simp only [funcAt_eq hs hd hk] at h
  obtain ⟨es, hes, h⟩ := bind_done h
  cases h
  have hft := (hf.inTree hs).1
  have hsp : fieldSpace f.kind = some .func := by
    obtain ⟨_, _, _, _, _, _, _, h, _⟩ := func_sym hs hf hfk
    exact h
  have e1 : (is.filter fun e => e.item.range == rf).map CallEntry.ranges =
      ((symbolTable (Red.root g)).symbols.filter (callsTo sg)).flatMap (siteIn src (Red.root g) f) := by
    refine filterMapL_flatMap hes ?_
    intro c hc o ho
    obtain ⟨hc1, hc2⟩ := List.mem_filter.mp hc
    exact incomingEntry_eq hs hf hfk hrf hc1 (callsTo_kind hc2) ho
  rw [e1]
  rcases func_kind hsp with hkf | hki
  · obtain ⟨A, B, hAB⟩ := descendants_split f hft
    have hsyms := symbolTable_symbols (Red.root g)
    rw [hAB, symsFrom_append, symsFrom_append] at hsyms
    have hin : ∀ c ∈ (symbolTable (Red.root g)).symbols, callsTo sg c = true → siteIn src (Red.root g) f c ≠ [] →
        c ∈ symsFrom (idAfter 0 A) f.descendants := by
      intro c hc hct hne
      obtain ⟨x, r, i, hr, rfl⟩ := call_sym hs hc (callsTo_kind hct)
      have hn : (refSymOf x r .func i).key.toNode (Red.root g) = some x :=
        hr.tree.toNode hs (hr.isSym.nonempty hs)
      have he := siteIn_some hn hne
      obtain ⟨p, hp1, hp2, hp3, hp4⟩ := call_in_func hs hr hft hkf (List.mem_of_find?_eq_some he)
      obtain ⟨a, b, hab⟩ := List.append_of_mem hp1
      refine mem_symsFrom.mpr ⟨a, p, b, hab, ?_⟩
      unfold symsOf
      rw [hp2]
      exact hp4
    have hdis := symbols_distinct hs
    have hmem : ∀ c, c ∈ symsFrom 0 A ∨ c ∈ symsFrom (idAfter 0 (A ++ f.descendants)) B → c ∈ (symbolTable (Red.root g)).symbols := by
      intro c hc
      rw [hsyms, List.mem_append, List.mem_append]
      rcases hc with hc | hc
      · exact .inl (.inl hc)
      · exact .inr hc
    have hno : ∀ c, c ∈ symsFrom 0 A ∨ c ∈ symsFrom (idAfter 0 (A ++ f.descendants)) B →
        c ∉ symsFrom (idAfter 0 A) f.descendants := by
      intro c hc hc'
      rw [hsyms, List.pairwise_append, List.pairwise_append] at hdis
      rcases hc with hc | hc
      · exact hdis.1.2.2 c hc c hc' rfl
      · exact hdis.2.2 c (List.mem_append.mpr (.inr hc')) c hc rfl
    have hnil : ∀ L : List Sym, (∀ c ∈ L, c ∈ symsFrom 0 A ∨ c ∈ symsFrom (idAfter 0 (A ++ f.descendants)) B) →
        (L.filter (callsTo sg)).flatMap (siteIn src (Red.root g) f) = [] := by
      intro L hL
      refine flatMap_nil ?_
      intro c hc
      obtain ⟨hc1, hc2⟩ := List.mem_filter.mp hc
      cases hsi : siteIn src (Red.root g) f c with
      | nil => rfl
      | cons a l =>
        exfalso
        exact hno c (hL c hc1) (hin c (hmem c (hL c hc1)) hc2 (by rw [hsi]; exact List.cons_ne_nil _ _))
    rw [hsyms, List.filter_append, List.filter_append, List.flatMap_append, List.flatMap_append,
      hnil (symsFrom 0 A) (fun c hc => .inl hc), hnil _ (fun c hc => .inr hc), List.nil_append, List.append_nil,
      symsFrom_calls hs _ (fun c => callsTo_kind) f.descendants _ (fun n hn => hft.descendant hn)
        (fun n hn => kinds_below hs inFunc_closed hft (by rw [hkf]; rfl) n (hft.descendant hn) hn), List.flatMap_assoc]
    refine flatMap_congr fun p hp => ?_
    obtain ⟨hp1, hp2⟩ := List.mem_filter.mp hp
    rw [beq_iff_eq] at hp2
    have hpt := hft.descendant hp1
    unfold siteRanges
    have e3 : ((instrRefs p).filter (callsTo sg)).map (fun _ => [rangeOf src p]) =
        ((instrRefs p).filter (callsTo sg)).flatMap fun _ => [[rangeOf src p]] := by
      generalize (instrRefs p).filter (callsTo sg) = l
      induction l with
      | nil => rfl
      | cons a l ih => rw [List.map_cons, ih, List.flatMap_cons]; rfl
    rw [e3]
    refine flatMap_congr fun c hc => ?_
    obtain ⟨hc1, _⟩ := List.mem_filter.mp hc
    obtain ⟨x, sp, r, i, h1, h2, h3, h4, h5⟩ := (mem_instrRefs hs hpt hp2).mp hc1
    have hxt := hpt.child h1
    have hxe : mayBeEmpty x.kind = false := by rw [operand_kind hs hpt hp2 h1]; rfl
    have hn : c.key.toNode (Red.root g) = some x := by rw [h5]; exact hxt.toNode hs hxe
    unfold siteIn
    rw [hn]
    simp only
    have hpar := Red.parent_of_child h1
    have hanc : f ∈ x.ancestors := by
      rw [Red.ancestors_eq, hpar]
      exact List.mem_cons_of_mem _ ((hft.mem_descendants hpt).mp hp1)
    rw [if_pos (enclosing_func hs hxt hft hkf hanc hxe), hpar]
    rfl
  · rw [flatMap_nil, flatMap_nil]
    · intro p hp
      exfalso
      obtain ⟨hp1, hp2⟩ := List.mem_filter.mp hp
      rw [beq_iff_eq] at hp2
      have := kinds_below hs inImport_closed hft (by rw [hki]; rfl) p (hft.descendant hp1) hp1
      rw [hp2] at this
      cases this
    · intro c hc
      obtain ⟨hc1, _⟩ := List.mem_filter.mp hc
      obtain ⟨x, hx, hn⟩ := sym_toNode hs hc1
      cases hsi : siteIn src (Red.root g) f c with
      | nil => rfl
      | cons a l =>
        exfalso
        have he := siteIn_some hn (by rw [hsi]; exact List.cons_ne_nil _ _)
        have := List.find?_some he
        rw [beq_iff_eq, hki] at this
        cases this

end Verif
