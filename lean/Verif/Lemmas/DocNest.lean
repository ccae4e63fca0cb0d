import Verif.Lemmas.DocSymbol
/-!
Lemmas: what the entries of the outline say, and that they are well nested.
-/
namespace Verif
open Spec

variable {g : Green}

theorem docEntry_node (hs : Solid g) {src : Text} {s : Sym} {x : Red} {k : Nat} {dk : DocKind} {key : Key} {d : DocSym}
    (hx : IsSym g s x) (hdk : s.kind.docKind = some dk) (hm : dk ≠ .module) (hi : s.idx = ⟨some k, nameOf x⟩)
    (h : docEntry src (Red.root g) s = .done (some (key, d))) : IsEntry src x k dk d := by
  have hkey := (hx.inTree hs).2.1
  have hnode : s.key.toNode (Red.root g) = some x := by rw [hkey, (hx.inTree hs).1.toNode hs (hx.nonempty hs)]
  have hname : symbolName s = (nameOf x).getD (Nat.toDigits 10 k) := by
    unfold symbolName; rw [hi]; simp only
    cases nameOf x <;> rfl
  have hof : ∀ {α : Type} {o : Option α} {a : α}, Ans.ofOption o = .done a → o = some a := by
    intro α o a h
    cases o with
    | none => cases h
    | some b => cases h; rfl
  unfold docEntry at h
  rw [hdk] at h
  have h' : ((Ans.ofOption (rowanRangeToLsp src s.key.start s.key.stop)).bind fun r =>
      (Ans.ofOption (s.key.toNode (Red.root g))).bind fun n =>
        match n.token .IDENT with
        | none => .done (some (s.key, DocSym.mk (symbolName s) dk r r []))
        | some t => (Ans.ofOption (rowanRangeToLsp src t.off t.stop)).bind fun sel =>
            .done (some (s.key, DocSym.mk (symbolName s) dk r sel []))) = .done (some (key, d)) := by
    cases dk with
    | module => exact absurd rfl hm
    | function => exact h
    | «variable» => exact h
  obtain ⟨r, hr, h'⟩ := bind_done h'
  obtain ⟨n, hn, h'⟩ := bind_done h'
  rw [hnode] at hn
  cases hn
  have hr' : IsRange src (x.start, x.stop) r := by
    have := rowanRangeToLsp_iff.mp (hof hr)
    rw [hkey] at this
    exact this
  split at h'
  · rename_i ht
    cases h'
    exact ⟨hname, rfl, hr', by unfold selectionOf; rw [ht]; exact hr'⟩
  · rename_i t ht
    obtain ⟨sel, hsel, h'⟩ := bind_done h'
    cases h'
    exact ⟨hname, rfl, hr', by unfold selectionOf; rw [ht]; exact rowanRangeToLsp_iff.mp (hof hsel)⟩

theorem Spec.Matched.of_map {R : α → β → Prop} {f : α → β} : ∀ {l : List α}, (∀ a ∈ l, R a (f a)) → Matched R l (l.map f)
  | [], _ => trivial
  | a :: l, h => ⟨h a (by simp), Matched.of_map fun b hb => h b (by simp [hb])⟩

/-- The finished entry of a module. -/
theorem finished_module (hs : Solid g) {src : Text}
    (he : ∀ s ∈ (symbolTable (Red.root g)).symbols, shown s = true →
        docEntry src (Red.root g) s = .done (some (s.key, entryOf src (Red.root g) s)))
    {m : Red} (hm : m ∈ (Red.root g).children) :
    ModuleEntry src m (finished src (Red.root g) (symbolTable (Red.root g)).symbols 2 (moduleSym g m)) := by
  have hsym : IsSym g (moduleSym g m) m := .module hm
  have h1 := he _ ((mem_symbols_iff hs).mpr ⟨m, hsym⟩) rfl
  have hmod : (entryOf src (Red.root g) (moduleSym g m)).name = t!"module" ∧
      (entryOf src (Red.root g) (moduleSym g m)).kind = .module ∧
      IsRange src (m.start, m.stop) (entryOf src (Red.root g) (moduleSym g m)).range ∧
      (entryOf src (Red.root g) (moduleSym g m)).selection = (entryOf src (Red.root g) (moduleSym g m)).range := by
    generalize entryOf src (Red.root g) (moduleSym g m) = d at h1
    unfold docEntry at h1
    simp only [moduleSym, SymKind.docKind] at h1
    obtain ⟨r, hr, h1⟩ := bind_done h1
    cases h1
    refine ⟨rfl, rfl, ?_, rfl⟩
    cases ho : rowanRangeToLsp src m.key.start m.key.stop with
    | none => rw [ho] at hr; cases hr
    | some r' =>
      rw [ho] at hr
      cases hr
      exact rowanRangeToLsp_iff.mp ho
  refine ⟨hmod.1, hmod.2.1, hmod.2.2.1, hmod.2.2.2, ?_⟩
  rw [finished, DocSym.withKids_children, fields_of_table hs hm, List.map_filterMap]
  have hall : ∀ q ∈ (fields m).zipIdx, ∃ sp, fieldSpace q.1.kind = some sp := by
    intro q hq
    have := (List.mem_filter.mp (List.fst_mem_of_mem_zipIdx hq)).2
    exact Option.isSome_iff_exists.mp this
  have hfield : ∀ q ∈ (fields m).zipIdx, ∀ sp, fieldSpace q.1.kind = some sp →
      FieldEntry src q (finished src (Red.root g) (symbolTable (Red.root g)).symbols 1 (fieldSymOf q.1 m sp q.2)) := by
    intro q hq sp hsp
    have hget := List.mem_zipIdx_iff_getElem?.mp hq
    have hx : IsSym g (fieldSymOf q.1 m sp q.2) q.1 := .field hm hget hsp
    have hsh : shown (fieldSymOf q.1 m sp q.2) = true := defSym_shown hsp
    have hxt := (hx.inTree hs).1
    have hd := he _ ((mem_symbols_iff hs).mpr ⟨_, hx⟩) hsh
    refine ⟨?_, ?_⟩
    · have hdk : (fieldSymOf q.1 m sp q.2).kind.docKind =
          some (if fieldSpace q.1.kind = some .func then DocKind.function else .variable) := by
        rw [hsp]
        have := fieldSpace_module hsp
        cases sp <;> first | rfl | (exact absurd this (by decide))
      have := docEntry_node hs hx hdk (by split <;> decide) rfl hd
      exact ⟨this.name, this.kind, this.range, this.selection⟩
    · rw [finished, DocSym.withKids_children, locals_of_table hs hxt _ hsp, List.map_map]
      apply Matched.of_map
      intro p hp
      have hk : q.1.kind = .MODULE_FIELD_FUNC := slots_local hs hxt (by
        intro h; rw [h] at hp; cases hp)
      have hge := List.le_snd_of_mem_zipIdx hp
      have hgl : (localSlots q.1)[p.2]? = some p.1 := by
        rw [localSlots_split, List.getElem?_append_right hge]
        exact (List.mem_zipIdx_iff_le_and_getElem?_sub.mp hp).2
      have hl : IsSym g (slotSymOf p.1 q.1 p.2) p.1 := .slot hxt hk hgl
      have hkind : (slotSymOf p.1 q.1 p.2).kind = .local := by
        unfold slotSymOf
        simp only
        rw [paramCount_eq, if_neg (Nat.not_lt.mpr hge)]
      have hsh : shown (slotSymOf p.1 q.1 p.2) = true := by unfold shown; rw [hkind]; rfl
      have hd := he _ ((mem_symbols_iff hs).mpr ⟨_, hl⟩) hsh
      exact ⟨docEntry_node hs hl (by rw [hkind]; rfl) (by decide) rfl hd, entryOf_children _ _ _⟩
  generalize (fields m).zipIdx = l at hall hfield
  induction l with
  | nil => trivial
  | cons q l ih =>
    obtain ⟨sp, hsp⟩ := hall q (by simp)
    rw [List.filterMap_cons, hsp]
    exact ⟨hfield q (by simp) sp hsp, ih (fun p hp => hall p (by simp [hp])) (fun p hp => hfield p (by simp [hp]))⟩

/-- The answer: an entry for every module that has a field. -/
theorem documentSymbols_entries (hs : Solid g) {src : Text} {ds : List DocSym} (h : documentSymbols src (Red.root g) = .done ds) :
    ∃ ds', ds.Perm ds' ∧ Matched (ModuleEntry src) (shownModules g) ds' := by
  obtain ⟨h1, h2⟩ := documentSymbols_eq hs h
  rw [modules_of_table hs] at h1
  rw [List.map_map] at h1
  refine ⟨_, List.Perm.trans (by rw [h1]) (List.reverse_perm _), ?_⟩
  have e : ((Red.root g).children.filter fun m => !((symbolTable (Red.root g)).symbols.filter (kidOf (moduleSym g m))).isEmpty) =
      shownModules g := by
    unfold shownModules
    apply List.filter_congr
    intro m hm
    rw [fields_of_table hs hm]
    congr 1
    have hall : ∀ x ∈ fields m, ∃ sp, fieldSpace x.kind = some sp := by
      intro x hx
      exact Option.isSome_iff_exists.mp (List.mem_filter.mp hx).2
    cases hf : fields m with
    | nil => rfl
    | cons x l =>
      obtain ⟨sp, hsp⟩ := hall x (by rw [hf]; simp)
      rw [List.zipIdx_cons, List.filterMap_cons, hsp]
      rfl
  rw [e]
  apply Matched.of_map
  intro m hm
  exact finished_module hs h2 (List.mem_filter.mp hm).1

/-- An answer is given. -/
theorem documentSymbols_ok (hs : Solid g) {src d : Text} (ht : g.text ++ d = src) :
    ∃ ds, documentSymbols src (Red.root g) = .done ds := by
  have key : ∀ {l : List Sym}, (∀ s ∈ l, s ∈ (symbolTable (Red.root g)).symbols) →
      ∃ es, Ans.filterMapL (docEntry src (Red.root g)) l = .done es := by
    intro l hl
    apply filterMapL_ok
    intro s hsm
    obtain ⟨x, hx, hnode⟩ := sym_toNode hs (hl s hsm)
    have hxt := (hx.inTree hs).1
    obtain ⟨r, hr⟩ := node_range_ok hs ht hxt
    have hr' : rowanRangeToLsp src s.key.start s.key.stop = some r := by rw [(hx.inTree hs).2.1]; exact hr
    unfold docEntry
    split
    · exact ⟨_, rfl⟩
    · rw [hr']; exact ⟨_, rfl⟩
    · rw [hr', hnode]
      simp only [Ans.ofOption, Ans.bind]
      cases htok : x.token .IDENT with
      | none => exact ⟨_, rfl⟩
      | some t =>
        obtain ⟨r2, hr2⟩ := tok_range_ok hs ht (tok_mem hxt (List.mem_of_find?_eq_some htok))
        simp only [hr2]
        exact ⟨_, rfl⟩
  obtain ⟨es, hes⟩ := key (l := (symbolTable (Red.root g)).symbols) fun s h => h
  unfold documentSymbols
  simp only [hes]
  exact ⟨_, rfl⟩

/-! ### Nesting -/

theorem selectionOf_within {n : Red} (hs : Solid g) (hn : InTree g n) : n.start ≤ (selectionOf n).1 ∧ (selectionOf n).2 ≤ n.stop := by
  unfold selectionOf
  split
  · rename_i t ht
    exact childTok_within (List.mem_of_find?_eq_some ht)
  · exact ⟨Nat.le_refl _, Nat.le_refl _⟩

/-- Fields of a module follow each other. -/
theorem fields_order (hs : Solid g) {m : Red} (hm : m ∈ (Red.root g).children) :
    (fields m).Pairwise fun a b => a.stop ≤ b.start := by
  unfold fields
  have hmt : InTree g m := InTree.child (InTree.root g) hm
  refine List.Pairwise.imp_of_mem ?_ (m.descendants_preorder.filter _)
  intro a b ha hb hpre
  obtain ⟨ha1, ha2⟩ := List.mem_filter.mp ha
  obtain ⟨hb1, hb2⟩ := List.mem_filter.mp hb
  rcases hpre with h | h
  · exfalso
    have hbt := hmt.descendant hb1
    have hanc : a ∈ b.ancestors := StrictlyBelow.mem_ancestors h
    rw [Red.ancestors_eq] at hanc
    have hne : a ≠ b := by rintro rfl; exact StrictlyBelow.irrefl h
    have hmk := root_children hs hm
    have hreg := field_region hs hm hb1 hb2
    have hmf : fieldSpace m.kind = none := by rw [hmk]; rfl
    have hma : ∀ y ∈ m.ancestors, (fieldSpace y.kind).isSome → False := by
      intro y hy hyf
      rw [Red.ancestors_eq, Red.parent_of_child hm] at hy
      rcases List.mem_cons.mp hy with rfl | hy
      · rw [hmf] at hyf; cases hyf
      · simp only at hy
        rw [Red.ancestors_eq] at hy
        rcases List.mem_cons.mp hy with rfl | hy
        · rw [root_kind hs] at hyf; cases hyf
        · cases hy
    rcases List.mem_cons.mp hanc with h1 | h1
    · exact hne h1
    · split at h1
      · rename_i p hp
        have hpk := hbt.parent_kind hs hp
        rcases field_parent hpk hb2 with ⟨h3, h4⟩ | ⟨h3, h4⟩
        · rw [if_neg (by rw [h3]; simp), hp] at hreg
          cases hreg
          exact hma a h1 ha2
        · rw [if_pos h3, hp] at hreg
          simp only [Option.bind_some] at hreg
          rw [Red.ancestors_eq] at h1
          rcases List.mem_cons.mp h1 with rfl | h1
          · rw [h4] at ha2; cases ha2
          · rw [hreg] at h1
            exact hma a h1 ha2
      · cases h1
  · exact h

theorem Spec.Matched.pairwise {R : α → β → Prop} {P : α → α → Prop} {Q : β → β → Prop} : ∀ {as : List α} {bs : List β},
    Matched R as bs → as.Pairwise P → (∀ a a' b b', R a b → R a' b' → P a a' → Q b b') → bs.Pairwise Q
  | [], [], _, _, _ => .nil
  | a :: as, b :: bs, h, hp, hi => by
    rw [List.pairwise_cons] at hp ⊢
    refine ⟨?_, Matched.pairwise h.2 hp.2 hi⟩
    intro b' hb'
    obtain ⟨a', ha', hr⟩ := Matched.right h.2 b' hb'
    exact hi a a' b b' h.1 hr (hp.1 a' ha')
  | [], _ :: _, h, _, _ => h.elim
  | _ :: _, [], h, _, _ => h.elim

theorem zipIdx_pairwise {P : α → α → Prop} : ∀ {l : List α} {n : Nat}, l.Pairwise P → (l.zipIdx n).Pairwise fun a b => P a.1 b.1
  | [], _, _ => .nil
  | a :: l, n, h => by
    rw [List.pairwise_cons] at h
    rw [List.zipIdx_cons, List.pairwise_cons]
    exact ⟨fun q hq => h.1 q.1 (List.fst_mem_of_mem_zipIdx hq), zipIdx_pairwise h.2⟩

theorem localNodes_order (hs : Solid g) {f : Red} (hf : InTree g f) :
    (localNodes f).Pairwise (fun a b => a.stop ≤ b.start) ∧ ∀ x ∈ localNodes f, InTree g x ∧ f.start ≤ x.start ∧ x.stop ≤ f.stop := by
  have h := groups_order hs (gs := f.children.filter fun c => c.kind == .LOCAL)
    (fun x hx => by
      obtain ⟨h1, h2⟩ := List.mem_filter.mp hx
      rw [beq_iff_eq] at h2
      exact ⟨hf.child h1, by rw [h2]; rfl⟩) (f.children_order.filter _)
  refine ⟨h.1, ?_⟩
  intro x hx
  obtain ⟨h1, _, c, hc, h2, h3⟩ := h.2 x hx
  have w := Red.descendants_within (Red.children_mem_descendants (List.mem_filter.mp hc).1)
  exact ⟨h1, by omega, by omega⟩

theorem Spec.IsEntry.selection_in (hs : Solid g) {src : Text} {n : Red} (hn : InTree g n) {k : Nat} {dk : DocKind} {d : DocSym}
    (h : IsEntry src n k dk d) : LiesIn d.selection d.range :=
  (isRange_within h.selection h.range).mpr (selectionOf_within hs hn)

theorem fieldEntry_nested (hs : Solid g) {src : Text} {q : Red × Nat} (hn : InTree g q.1) {d : DocSym} (h : FieldEntry src q d) :
    WellNested d := by
  obtain ⟨he, hm⟩ := h
  obtain ⟨ho, hin⟩ := localNodes_order hs hn
  have hr : ∀ c ∈ d.children, ∃ p : Red × Nat, p.1 ∈ localNodes q.1 ∧ LocalEntry src p c := by
    intro c hc
    obtain ⟨p, hp, hl⟩ := Matched.right hm c hc
    exact ⟨p, List.fst_mem_of_mem_zipIdx hp, hl⟩
  refine .mk (he.selection_in hs hn) ?_ ?_ ?_
  · intro c hc
    obtain ⟨p, hp, hl⟩ := hr c hc
    exact (isRange_within hl.1.range he.range).mpr (hin _ hp).2
  · refine Matched.pairwise hm (zipIdx_pairwise ho) ?_
    intro a a' b b' hb hb' hP
    exact (isRange_before hb.1.range hb'.1.range).mpr hP
  · intro c hc
    obtain ⟨p, hp, hl⟩ := hr c hc
    refine .mk (hl.1.selection_in hs (hin _ hp).1) ?_ ?_ ?_ <;> rw [hl.2] <;> simp

theorem moduleEntry_nested (hs : Solid g) {src : Text} {m : Red} (hm : m ∈ (Red.root g).children) {d : DocSym}
    (h : ModuleEntry src m d) : WellNested d := by
  have hmt : InTree g m := InTree.child (InTree.root g) hm
  have hr : ∀ c ∈ d.children, ∃ p : Red × Nat, p.1 ∈ fields m ∧ FieldEntry src p c := by
    intro c hc
    obtain ⟨p, hp, hl⟩ := Matched.right h.children c hc
    exact ⟨p, List.fst_mem_of_mem_zipIdx hp, hl⟩
  refine .mk ?_ ?_ ?_ ?_
  · rw [h.selection]; exact (isRange_within h.range h.range).mpr ⟨Nat.le_refl _, Nat.le_refl _⟩
  · intro c hc
    obtain ⟨p, hp, hl⟩ := hr c hc
    exact (isRange_within hl.1.range h.range).mpr (Red.descendants_within (List.mem_filter.mp hp).1)
  · refine Matched.pairwise h.children (zipIdx_pairwise (fields_order hs hm)) ?_
    intro a a' b b' hb hb' hP
    exact (isRange_before hb.1.range hb'.1.range).mpr hP
  · intro c hc
    obtain ⟨p, hp, hl⟩ := hr c hc
    exact fieldEntry_nested hs (hmt.descendant (List.mem_filter.mp hp).1) hl

end Verif
