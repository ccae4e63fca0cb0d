import Verif.Model.DocSymbol
import Verif.Lemmas.Distinct
import Verif.Lemmas.Typing
import Verif.Lemmas.Legend
import Verif.Lemmas.Outline
import Verif.Lemmas.Offsets
import Verif.Spec.DocSymbol
/-!
Lemmas: the loop that nests the document symbols.
-/
namespace Verif

/-- A symbol of the answer with other children. -/
def DocSym.withKids (d : DocSym) (c : List DocSym) : DocSym := .mk d.name d.kind d.range d.selection c

theorem DocSym.withKids_children (d : DocSym) (c : List DocSym) : (d.withKids c).children = c := rfl
theorem DocSym.withKids_self {d : DocSym} (h : d.children = []) : d.withKids [] = d := by
  cases d; simp only [DocSym.children] at h; subst h; rfl
theorem DocSym.flip_withKids (d : DocSym) (c : List DocSym) : (d.withKids c).flip = d.withKids c.reverse := rfl
theorem DocSym.push_withKids (d : DocSym) (c : List DocSym) (x : DocSym) : (d.withKids c).push x = d.withKids (c ++ [x]) := rfl

def shown (s : Sym) : Bool := s.kind.docKind.isSome
def kidOf (s c : Sym) : Bool := shown c && c.region == s.key

section
variable {syms : List Sym} {item F : Sym → DocSym}

/-- The map after the symbols of `T`, the last ones, have been placed. -/
def stateAfter (V : List Sym) (item F : Sym → DocSym) (T : List Sym) : DocMap :=
  (V.filter fun s => T.all fun t => t.key != s.key).map fun s =>
    (s.key, (item s).withKids ((T.filter (kidOf s)).map F).reverse)

theorem state_get {V : List Sym} (hd : V.Pairwise fun s s' => s.key ≠ s'.key) {T : List Sym} {s : Sym} (hs : s ∈ V)
    (ha : (T.all fun t => t.key != s.key) = true) :
    (stateAfter V item F T).get s.key = some ((item s).withKids ((T.filter (kidOf s)).map F).reverse) := by
  unfold DocMap.get stateAfter
  have hd' := hd.filter fun s => T.all fun t => t.key != s.key
  have hm : s ∈ V.filter fun s => T.all fun t => t.key != s.key := List.mem_filter.mpr ⟨hs, ha⟩
  generalize V.filter (fun s => T.all fun t => t.key != s.key) = W at hd' hm
  induction W with
  | nil => cases hm
  | cons w W ih =>
    rw [List.map_cons, List.find?_cons]
    by_cases hw : w.key = s.key
    · have : w = s := by
        rcases List.mem_cons.mp hm with rfl | hm
        · rfl
        · exact absurd hw ((List.pairwise_cons.mp hd').1 s hm)
      subst this
      simp
    · simp only [beq_eq_false_iff_ne.mpr hw]
      rcases List.mem_cons.mp hm with rfl | hm
      · exact absurd rfl hw
      · exact ih (List.pairwise_cons.mp hd').2 hm

theorem state_get_none {V T : List Sym} {k : Key} (h : ∀ s ∈ V, s.key = k → (T.all fun t => t.key != s.key) = false) :
    (stateAfter V item F T).get k = none := by
  unfold DocMap.get stateAfter
  rw [Option.map_eq_none_iff, List.find?_eq_none]
  rintro x hx hk
  obtain ⟨s, hs, rfl⟩ := List.mem_map.mp hx
  obtain ⟨h1, h2⟩ := List.mem_filter.mp hs
  rw [beq_iff_eq] at hk
  rw [h s h1 hk] at h2
  cases h2

theorem state_erase {V T : List Sym} {c : Sym} :
    (stateAfter V item F T).erase c.key = (V.filter fun s => (c :: T).all fun t => t.key != s.key).map fun s =>
      (s.key, (item s).withKids ((T.filter (kidOf s)).map F).reverse) := by
  unfold DocMap.erase stateAfter
  rw [List.filter_map, List.filter_filter]
  congr 1
  apply List.filter_congr
  intro s _
  simp only [Function.comp, List.all_cons, bne]
  rw [Bool.beq_comm]

/-- One step of the loop. -/
theorem place_step {P T : List Sym} {c : Sym} (hsy : syms = P ++ c :: T)
    (hd : syms.Pairwise fun s s' => s.key ≠ s'.key) {U : List Sym} (hU : U = T.filter fun s => s.region.kind != .ROOT)
    (hc : c.region.kind ≠ .ROOT)
    (hparent : shown c = true → ∃ p ∈ P, shown p = true ∧ p.key = c.region)
    (hF : F c = (item c).withKids ((U.filter (kidOf c)).map F)) :
    placeSymbol (stateAfter (syms.filter shown) item F U) c = stateAfter (syms.filter shown) item F (c :: U) := by
  have hdc : ∀ x ∈ P ++ T, x.key ≠ c.key := by
    rw [hsy, List.pairwise_append] at hd
    obtain ⟨_, h2, h3⟩ := hd
    intro x hx
    rcases List.mem_append.mp hx with hx | hx
    · exact h3 x hx c (by simp)
    · exact fun h => (List.pairwise_cons.mp h2).1 x hx h.symm
  have hUT : ∀ x ∈ U, x ∈ T := by rw [hU]; intro x hx; exact (List.mem_filter.mp hx).1
  have hVd := hd.filter shown
  have hcm : c ∈ syms := by rw [hsy]; simp
  by_cases hsh : shown c = true
  · obtain ⟨p, hp, hps, hpk⟩ := hparent hsh
    have hpd : ∀ x ∈ c :: T, p.key ≠ x.key := by
      rw [hsy, List.pairwise_append] at hd
      exact fun x hx => hd.2.2 p hp x hx
    have hget : (stateAfter (syms.filter shown) item F U).get c.key =
        some ((item c).withKids ((U.filter (kidOf c)).map F).reverse) := by
      apply state_get hVd (List.mem_filter.mpr ⟨hcm, hsh⟩)
      rw [List.all_eq_true]
      intro x hx
      rw [bne_iff_ne]
      exact hdc x (List.mem_append.mpr (.inr (hUT x hx)))
    have hpm : p ∈ syms := by rw [hsy]; simp [hp]
    have hpalive : ((c :: U).all fun t => t.key != p.key) = true := by
      rw [List.all_eq_true]
      intro x hx
      rw [bne_iff_ne]
      refine fun h => hpd x ?_ h.symm
      rcases List.mem_cons.mp hx with rfl | hx
      · simp
      · simp [hUT x hx]
    have hpg : ∃ d, ((stateAfter (syms.filter shown) item F U).erase c.key).get c.region = some d := by
      rw [state_erase, ← hpk]
      unfold DocMap.get
      cases hf : (((syms.filter shown).filter fun s => (c :: U).all fun t => t.key != s.key).map fun s =>
        (s.key, (item s).withKids ((U.filter (kidOf s)).map F).reverse)).find? fun x => x.1 == p.key with
      | some y => exact ⟨y.2, rfl⟩
      | none =>
        exfalso
        rw [List.find?_eq_none] at hf
        exact hf _ (List.mem_map.mpr ⟨p, List.mem_filter.mpr ⟨List.mem_filter.mpr ⟨hpm, hps⟩, hpalive⟩, rfl⟩) (by simp)
    obtain ⟨d, hd'⟩ := hpg
    unfold placeSymbol
    rw [hget, hd']
    simp only
    rw [state_erase]
    unfold DocMap.update stateAfter
    rw [List.map_map]
    apply List.map_congr_left
    intro s hsm
    have hsk := (List.mem_filter.mp hsm).1
    simp only [Function.comp]
    rw [DocSym.flip_withKids, List.reverse_reverse, ← hF]
    by_cases hk : s.key = c.region
    · have e1 : (s.key == c.region) = true := beq_iff_eq.mpr hk
      have e2 : kidOf s c = true := by unfold kidOf; rw [hsh, hk]; simp
      rw [if_pos e1, DocSym.push_withKids, List.filter_cons, if_pos e2, List.map_cons, List.reverse_cons]
    · have e1 : ¬ (s.key == c.region) = true := by rw [beq_iff_eq]; exact hk
      have e2 : ¬ kidOf s c = true := by
        unfold kidOf; rw [hsh, Bool.true_and, beq_iff_eq]; exact fun h => hk h.symm
      rw [if_neg e1, List.filter_cons, if_neg e2]
  · have hget : (stateAfter (syms.filter shown) item F U).get c.key = none := by
      apply state_get_none
      intro s hs hk
      obtain ⟨h1, h2⟩ := List.mem_filter.mp hs
      exfalso
      rw [hsy] at h1
      rcases List.mem_append.mp h1 with h3 | h3
      · exact hdc s (List.mem_append.mpr (.inl h3)) hk
      · rcases List.mem_cons.mp h3 with rfl | h3
        · exact hsh h2
        · exact hdc s (List.mem_append.mpr (.inr h3)) hk
    unfold placeSymbol
    rw [hget]
    simp only
    rw [state_erase]
    unfold stateAfter
    apply List.map_congr_left
    intro s _
    have e2 : ¬ kidOf s c = true := by
      unfold kidOf; rw [Bool.and_eq_true]; exact fun h => hsh h.1
    rw [List.filter_cons, if_neg e2]

/-- The map after the loop. -/
theorem place_all (hd : syms.Pairwise fun s s' => s.key ≠ s'.key)
    (hparent : ∀ P c T, syms = P ++ c :: T → c.region.kind ≠ .ROOT → shown c = true →
      ∃ p ∈ P, shown p = true ∧ p.key = c.region)
    (hroot : ∀ s ∈ syms, shown s = true → s.region.kind = .ROOT → ∀ c ∈ syms, s.region ≠ c.key)
    (hitem : ∀ s, (item s).children = [])
    (hF : ∀ s ∈ syms, F s = (item s).withKids ((syms.filter (kidOf s)).map F)) :
    ((syms.filter fun s => s.region.kind != .ROOT).reverse).foldl placeSymbol
        ((syms.filter shown).map fun s => (s.key, item s)) =
      stateAfter (syms.filter shown) item F (syms.filter fun s => s.region.kind != .ROOT) := by
  rw [List.foldl_reverse]
  have H : ∀ (T P : List Sym), syms = P ++ T →
      (T.filter fun s => s.region.kind != .ROOT).foldr (fun s m => placeSymbol m s)
        ((syms.filter shown).map fun s => (s.key, item s)) =
      stateAfter (syms.filter shown) item F (T.filter fun s => s.region.kind != .ROOT) := by
    intro T
    induction T with
    | nil =>
      intro P _
      unfold stateAfter
      simp only [List.filter_nil, List.foldr_nil, List.all_nil, List.map_nil, List.reverse_nil]
      rw [List.filter_eq_self.mpr (fun _ _ => rfl)]
      apply List.map_congr_left
      intro s _
      rw [DocSym.withKids_self (hitem s)]
    | cons c T ih =>
      intro P hP
      have ih' := ih (P ++ [c]) (by rw [hP]; simp)
      rw [List.filter_cons]
      by_cases hr : c.region.kind = .ROOT
      · rw [if_neg (by simp [hr]), ih']
      · rw [if_pos (by simp [hr]), List.foldr_cons, ih']
        refine place_step hP hd rfl hr (hparent P c T hP hr) ?_
        rw [hF c (by rw [hP]; simp)]
        congr 2
        rw [List.filter_filter]
        -- all children of `c` come after it
        have e1 : (syms.filter (kidOf c)) = T.filter (kidOf c) := by
          rw [hP, List.filter_append]
          have hnone : ∀ k ∈ P ++ [c], kidOf c k = false := by
            intro k hk
            cases hkc : kidOf c k with
            | false => rfl
            | true =>
              exfalso
              unfold kidOf at hkc
              rw [Bool.and_eq_true, beq_iff_eq] at hkc
              obtain ⟨A, B, hAB⟩ := List.append_of_mem hk
              have hsplit : syms = A ++ k :: (B ++ T) := by
                have : syms = (P ++ [c]) ++ T := by rw [hP]; simp
                rw [this, hAB]; simp
              by_cases hkr : k.region.kind = .ROOT
              · exact hroot k (by rw [hsplit]; simp) hkc.1 hkr c (by rw [hP]; simp) hkc.2
              · obtain ⟨p, hp, _, hpk⟩ := hparent A k (B ++ T) hsplit hkr hkc.1
                rw [hkc.2] at hpk
                -- `p` is `c`, but it comes before `k`, which comes not after `c`
                have hd1 := hd
                rw [show syms = (P ++ [c]) ++ T by rw [hP]; simp, hAB] at hd1
                have hd2 := (List.pairwise_append.mp hd1).1
                have hlast : c ∈ k :: B := by
                  have := congrArg List.getLast? hAB
                  rw [List.getLast?_concat] at this
                  have h5 : (A ++ k :: B).getLast? = (k :: B).getLast? := by
                    rw [List.getLast?_append]
                    cases h6 : (k :: B).getLast? with
                    | none => simp at h6
                    | some z => rfl
                  rw [h5] at this
                  exact List.mem_of_getLast? this.symm
                exact (List.pairwise_append.mp hd2).2.2 p hp c hlast hpk
          rw [List.filter_cons, if_neg (by rw [hnone c (by simp)]; simp),
            List.filter_eq_nil_iff.mpr (fun k hk => by rw [hnone k (by simp [hk])]; simp), List.nil_append]
        rw [e1]
        apply List.filter_congr
        intro k hk
        cases hkc : kidOf c k with
        | false => rfl
        | true =>
          symm
          rw [Bool.true_and, bne_iff_ne]
          intro hkr
          unfold kidOf at hkc
          rw [Bool.and_eq_true, beq_iff_eq] at hkc
          exact hroot k (by rw [hP]; simp [hk]) hkc.1 hkr c (by rw [hP]; simp) hkc.2
  exact H syms [] rfl

end

/-! ### The table in order -/
open Spec
variable {g : Green}

/-- The symbol of a module. -/
def moduleSym (g : Green) (m : Red) : Sym := ⟨m.key, m.green, (Red.root g).key, .module, ⟨none, none⟩⟩

theorem symsOf_module {m : Red} (hm : m ∈ (Red.root g).children) (hs : Solid g) (id : Nat) : symsOf id m = [moduleSym g m] := by
  unfold symsOf
  rw [root_children hs hm, Red.parent_of_child hm]
  rfl

/-- The symbols of a field: its own, and after it the parameters and locals of a function. -/
theorem symsOf_field (hs : Solid g) {m x : Red} (hm : m ∈ (Red.root g).children) (hx : x ∈ m.descendants) {sp : Space}
    (hf : fieldSpace x.kind = some sp) (id : Nat) :
    symsOf id x = fieldSymOf x m sp id :: (if x.kind = .MODULE_FIELD_FUNC then funcLocals x else []) := by
  have hr := field_region hs hm hx (by rw [hf]; rfl)
  have hfk := fieldKind_eq x.kind
  rw [hf] at hfk
  have e : (if isImportDesc x.kind then importDescSymbol x id (defSym sp) else parentSymbol x id (defSym sp)).toList =
      [fieldSymOf x m sp id] := by
    unfold importDescSymbol parentSymbol
    split at hr
    · rename_i h1; rw [if_pos h1, hr]; rfl
    · rename_i h1; rw [if_neg h1, hr]; rfl
  generalize hk : x.kind = k at *
  unfold symsOf
  rw [hk]
  cases k <;> simp only [fieldSpace, reduceCtorEq, Option.some.injEq] at hf <;> subst hf <;>
    simp only [fieldKind] <;> simp only [Option.map_some] at hfk <;>
    first
      | exact congrArg (· ++ ([] : List Sym)) e
      | exact congrArg (· ++ funcLocals x) e

/-- Where the symbols of a field stand in the table. -/
theorem table_field (hs : Solid g) {m x : Red} (hm : m ∈ (Red.root g).children) {k : Nat} (hk : (fields m)[k]? = some x)
    {sp : Space} (hf : fieldSpace x.kind = some sp) :
    ∃ A B C, (symbolTable (Red.root g)).symbols = (A ++ moduleSym g m :: B) ++
      (fieldSymOf x m sp k :: (if x.kind = .MODULE_FIELD_FUNC then funcLocals x else []) ++ C) := by
  rw [symbolTable_symbols, symbols_by_module hs]
  obtain ⟨ma, mb, hmab⟩ := List.append_of_mem hm
  rw [hmab, List.flatMap_append, List.flatMap_cons]
  obtain ⟨a, b, hab, hp, hlen⟩ := filter_getElem?.mp hk
  have hx : x ∈ m.descendants := by rw [hab]; simp
  have hmk := root_children hs hm
  have hno := no_module_below hs hm
  rw [Red.descendants_eq] at hab
  cases a with
  | nil =>
    exfalso
    simp only [List.nil_append, List.cons.injEq] at hab
    rw [← hab.1, hmk] at hf
    cases hf
  | cons n a =>
    simp only [List.cons_append, List.cons.injEq] at hab
    obtain ⟨rfl, hab⟩ := hab
    rw [hab] at hno
    have hid : idAfter 0 a = k := by
      rw [idAfter_noModule (fun y hy => hno y (by simp [hy])), ← hlen, List.filter_cons, if_neg (by rw [hmk]; decide), Nat.zero_add]
    rw [Red.descendants_eq, symsFrom, symsOf_module hm hs, hab, show nextId 0 m.kind = 0 by rw [nextId, if_pos hmk],
      symsFrom_append, hid, symsFrom, symsOf_field hs hm hx hf]
    exact ⟨ma.flatMap fun m => symsFrom 0 m.descendants, symsFrom 0 a, symsFrom (nextId k x.kind) b ++
      mb.flatMap fun m => symsFrom 0 m.descendants, by simp⟩

theorem split_unique {l : List Sym} (hd : l.Pairwise fun s s' => s.key ≠ s'.key) {a b a' b' : List Sym} {c : Sym}
    (h : l = a ++ c :: b) (h' : l = a' ++ c :: b') : a = a' := by
  have aux : ∀ {u v : List Sym}, l = u ++ c :: v → c ∉ u := by
    intro u v e hu
    rw [e, List.pairwise_append] at hd
    exact hd.2.2 c hu c (by simp) rfl
  have h1 := aux h
  have h2 := aux h'
  rw [h] at h'
  rcases List.append_eq_append_iff.mp h' with ⟨w, e1, e2⟩ | ⟨w, e1, e2⟩
  · cases w with
    | nil => rw [e1, List.append_nil]
    | cons y w =>
      exfalso
      simp only [List.cons_append, List.cons.injEq] at e2
      exact h2 (by rw [e1, e2.1]; simp)
  · cases w with
    | nil => rw [e1, List.append_nil]
    | cons y w =>
      exfalso
      simp only [List.cons_append, List.cons.injEq] at e2
      exact h1 (by rw [e1, e2.1]; simp)

theorem root_key_kind (hs : Solid g) : (Red.root g).key.kind = .ROOT := root_kind hs

theorem defSym_shown {k : Kind} {sp : Space} (h : fieldSpace k = some sp) : shown
    ⟨key, green, region, defSym sp, idx⟩ = true := by
  have := fieldSpace_module h
  cases sp <;> first | rfl | cases this

/-- The symbol of the parent comes before the symbol of the child. -/
theorem parent_before (hs : Solid g) {P T : List Sym} {c : Sym} (h : (symbolTable (Red.root g)).symbols = P ++ c :: T)
    (hr : c.region.kind ≠ .ROOT) (hc : shown c = true) : ∃ p ∈ P, shown p = true ∧ p.key = c.region := by
  have hd := symbols_distinct hs
  have hm : c ∈ (symbolTable (Red.root g)).symbols := by rw [h]; simp
  obtain ⟨x, hx⟩ := (mem_symbols_iff hs).mp hm
  cases hx with
  | module h1 => exact absurd (root_key_kind hs) hr
  | @field m x k sp h1 h2 h3 =>
    obtain ⟨A, B, C, e⟩ := table_field hs h1 h2 h3
    have e' := split_unique hd h e
    exact ⟨moduleSym g m, by rw [e']; simp, rfl, rfl⟩
  | @slot f x j h1 h2 h3 =>
    obtain ⟨m, hm', hfm⟩ := h1.in_module hs (by rw [h2]; decide)
    have hfs : fieldSpace f.kind = some .func := by rw [h2]; rfl
    obtain ⟨k, hk⟩ := List.getElem?_of_mem (show f ∈ fields m from List.mem_filter.mpr ⟨hfm, by rw [hfs]; rfl⟩)
    obtain ⟨A, B, C, e⟩ := table_field hs hm' hk hfs
    rw [if_pos h2] at e
    have hin := (mem_funcLocals hs h1).mpr ⟨j, x, h3, rfl⟩
    obtain ⟨u, v, huv⟩ := List.append_of_mem hin
    rw [huv] at e
    have e' := split_unique hd h (b' := v ++ C) (a' := (A ++ moduleSym g m :: B) ++ fieldSymOf f m .func k :: u) (by rw [e]; simp)
    exact ⟨fieldSymOf f m .func k, by rw [e']; simp, rfl, rfl⟩
  | @ref x r sp i h1 h2 h3 h4 => cases sp <;> cases hc
  | block h1 h2 h3 => cases hc

theorem symsOf_hidden (hs : Solid g) {n : Red} (hn : InTree g n) (hk : n.kind ≠ .MODULE) (hf : fieldSpace n.kind = none)
    {id : Nat} {s : Sym} (h : s ∈ symsOf id n) : ¬ shown s = true := by
  unfold symsOf at h
  split at h
  · exact absurd ‹_› hk
  · rename_i hnk
    obtain ⟨x, sp, r, i, _, _, _, _, rfl⟩ := (mem_instrRefs hs hn hnk).mp h
    cases sp <;> simp [shown, refSym, SymKind.docKind]
  all_goals try
    (rw [Option.mem_toList] at h
     obtain ⟨p, hp, rfl⟩ := Option.map_eq_some_iff.mp h
     simp [shown, SymKind.docKind])
  split at h
  · rename_i sk hfk
    rw [fieldKind_eq, hf] at hfk
    cases hfk
  · split at h
    · rename_i sk hi
      rw [Option.mem_toList] at h
      obtain ⟨x, sp, r, i, _, _, _, _, rfl⟩ := (mem_indexRef hi).mp h
      cases sp <;> simp [shown, refSym, SymKind.docKind]
    · cases h

/-- The symbols of the fields, in order. -/
theorem fields_of_table (hs : Solid g) {m : Red} (hm : m ∈ (Red.root g).children) :
    (symbolTable (Red.root g)).symbols.filter (kidOf (moduleSym g m)) =
      (fields m).zipIdx.filterMap fun q => (fieldSpace q.1.kind).map fun sp => fieldSymOf q.1 m sp q.2 := by
  have key : ∀ (l : List Red) (id : Nat), (∀ n ∈ l, n ∈ m.descendants ∧ n.kind ≠ .MODULE) →
      (symsFrom id l).filter (kidOf (moduleSym g m)) = ((l.filter fun n => (fieldSpace n.kind).isSome).zipIdx id).filterMap
        fun q => (fieldSpace q.1.kind).map fun sp => fieldSymOf q.1 m sp q.2 := by
    intro l
    induction l with
    | nil => intro id _; rfl
    | cons n l ih =>
      intro id hl
      have hn := hl n (by simp)
      have hnt : InTree g n := InTree.descendant (InTree.child (InTree.root g) hm) hn.1
      rw [symsFrom, List.filter_append, ih _ (fun y hy => hl y (List.mem_cons_of_mem _ hy)), List.filter_cons]
      cases hf : fieldSpace n.kind with
      | some sp =>
        rw [symsOf_field hs hm hn.1 hf, List.filter_cons, if_pos (by
          unfold kidOf; rw [Bool.and_eq_true, beq_iff_eq]; exact ⟨defSym_shown hf, rfl⟩), if_pos (show (some sp).isSome = true from rfl), List.zipIdx_cons,
          List.filterMap_cons, hf, show nextId id n.kind = id + 1 by
            rw [nextId, if_neg hn.2, if_pos (by rw [fieldKind_space, hf]; rfl)]]
        have e : (if n.kind = .MODULE_FIELD_FUNC then funcLocals n else []).filter (kidOf (moduleSym g m)) = [] := by
          rw [List.filter_eq_nil_iff]
          intro s hsm hkd
          split at hsm
          · rename_i hk
            obtain ⟨j, y, _, rfl⟩ := (mem_funcLocals hs hnt).mp hsm
            unfold kidOf at hkd
            rw [Bool.and_eq_true, beq_iff_eq] at hkd
            have h2 : n.kind = m.kind := congrArg Key.kind hkd.2
            exact hn.2 (by rw [h2, root_children hs hm])
          · cases hsm
        rw [e]
        rfl
      | none =>
        rw [if_neg (by simp), show nextId id n.kind = id by
            rw [nextId, if_neg hn.2, if_neg (by rw [fieldKind_space, hf]; simp)]]
        have e : (symsOf id n).filter (kidOf (moduleSym g m)) = [] := by
          rw [List.filter_eq_nil_iff]
          intro s hsm hkd
          unfold kidOf at hkd
          rw [Bool.and_eq_true] at hkd
          exact absurd hkd.1 (symsOf_hidden hs hnt hn.2 hf hsm)
        rw [e, List.nil_append]
  have hd := symbols_distinct hs
  rw [symbolTable_symbols, symbols_by_module hs] at hd ⊢
  obtain ⟨ma, mb, hmab⟩ := List.append_of_mem hm
  have hmk := root_children hs hm
  have hM : (symsFrom 0 m.descendants).filter (kidOf (moduleSym g m)) =
      (fields m).zipIdx.filterMap fun q => (fieldSpace q.1.kind).map fun sp => fieldSymOf q.1 m sp q.2 := by
    have hno := no_module_below hs hm
    unfold fields
    have hsub : ∀ y ∈ m.children.flatMap Red.descendants, y ∈ m.descendants := by
      intro y hy; rw [Red.descendants_eq]; exact List.mem_cons_of_mem _ hy
    rw [Red.descendants_eq, symsFrom, symsOf_module hm hs, List.filter_append, show nextId 0 m.kind = 0 by rw [nextId, if_pos hmk],
      key _ _ (fun n hn => ⟨hsub n hn, hno n hn⟩), List.filter_cons, List.filter_cons, if_neg, if_neg (by rw [hmk]; decide)]
    · rfl
    · unfold kidOf
      rw [Bool.and_eq_true, beq_iff_eq]
      rintro ⟨_, h2⟩
      have h3 : (Red.root g).kind = m.kind := congrArg Key.kind h2
      rw [root_kind hs, hmk] at h3
      cases h3
  have hin : ∀ s ∈ (Red.root g).children.flatMap (fun m => symsFrom 0 m.descendants), kidOf (moduleSym g m) s = true →
      s ∈ symsFrom 0 m.descendants := by
    intro s h1 h2
    rw [← symbols_by_module hs, ← symbolTable_symbols] at h1
    obtain ⟨x, hx⟩ := (mem_symbols_iff hs).mp h1
    unfold kidOf at h2
    rw [Bool.and_eq_true, beq_iff_eq] at h2
    obtain ⟨h2, h3⟩ := h2
    cases hx with
    | module h4 =>
      have h3 : (Red.root g).kind = m.kind := congrArg Key.kind h3
      rw [root_kind hs, hmk] at h3
      cases h3
    | @field m' x k sp h4 h5 h6 =>
      have := module_key_inj hs h4 hm h3
      subst this
      have : (⟨x.key, x.green, m'.key, defSym sp, ⟨some k, nameOf x⟩⟩ : Sym) ∈
          (symsFrom 0 m'.descendants).filter (kidOf (moduleSym g m')) := by
        rw [hM, List.mem_filterMap]
        exact ⟨(x, k), List.mem_zipIdx_iff_getElem?.mpr h5, by simp only [h6]; rfl⟩
      exact (List.mem_filter.mp this).1
    | @slot f x j h4 h5 h6 =>
      have h3 : f.kind = m.kind := congrArg Key.kind h3
      rw [h5, hmk] at h3
      cases h3
    | @ref x r sp i h4 h5 h6 h7 => cases sp <;> cases h2
    | block h4 h5 h6 => cases h2
  rw [hmab] at hd hin ⊢
  rw [List.flatMap_append, List.flatMap_cons] at hd hin ⊢
  rw [List.filter_append, List.filter_append, hM]
  have hA : (ma.flatMap fun m => symsFrom 0 m.descendants).filter (kidOf (moduleSym g m)) = [] := by
    rw [List.filter_eq_nil_iff]
    intro s h1 h2
    have h3 := hin s (by simp only [List.mem_append]; exact .inl h1) h2
    exact (List.pairwise_append.mp hd).2.2 s h1 s (List.mem_append.mpr (.inl h3)) rfl
  have hB : (mb.flatMap fun m => symsFrom 0 m.descendants).filter (kidOf (moduleSym g m)) = [] := by
    rw [List.filter_eq_nil_iff]
    intro s h1 h2
    have h3 := hin s (by simp only [List.mem_append]; exact .inr (.inr h1)) h2
    exact (List.pairwise_append.mp (List.pairwise_append.mp hd).2.1).2.2 s h3 s h1 rfl
  rw [hA, hB, List.nil_append, List.append_nil]


/-- The region of a symbol that is shown. -/
theorem shown_region (hs : Solid g) {s : Sym} (h : s ∈ (symbolTable (Red.root g)).symbols) (hsh : shown s = true) :
    (s.kind = .module ∧ s.region.kind = .ROOT) ∨ (s.kind ≠ .module ∧ s.kind ≠ .local ∧ s.region.kind = .MODULE) ∨
      (s.kind = .local ∧ s.region.kind = .MODULE_FIELD_FUNC) := by
  obtain ⟨x, hx⟩ := (mem_symbols_iff hs).mp h
  cases hx with
  | module h1 => exact .inl ⟨rfl, root_kind hs⟩
  | @field m x k sp h1 h2 h3 =>
    have h4 := fieldSpace_module h3
    refine .inr (.inl ⟨?_, ?_, root_children hs h1⟩) <;> cases sp <;> first | (exact absurd h4 (by decide)) | (exact fun h => SymKind.noConfusion h)
  | @slot f x j h1 h2 h3 =>
    refine .inr (.inr ⟨?_, h2⟩)
    by_cases hj : j < paramCount f
    · rw [if_pos hj] at hsh; cases hsh
    · exact if_neg hj
  | @ref x r sp i h1 h2 h3 h4 => cases sp <;> cases hsh
  | block h1 h2 h3 => cases hsh

theorem slots_local {f : Red} (hs : Solid g) (hf : InTree g f) (h : localNodes f ≠ []) : f.kind = .MODULE_FIELD_FUNC := by
  unfold localNodes at h
  cases hl : f.children.filter fun c => c.kind == .LOCAL with
  | nil => rw [hl] at h; exact absurd rfl h
  | cons c l =>
    have hc : c ∈ f.children.filter fun c => c.kind == .LOCAL := by rw [hl]; simp
    obtain ⟨h1, h2⟩ := List.mem_filter.mp hc
    rw [beq_iff_eq] at h2
    have h3 := hf.child_kind hs h1
    rw [h2] at h3
    generalize f.kind = k at h3
    cases k <;> first | rfl | (exfalso; revert h3; decide)

theorem localSlots_split (f : Red) : localSlots f = paramNodes f ++ localNodes f := by
  unfold localSlots paramNodes localNodes
  simp only
  rw [List.flatMap_assoc]

/-- The children of a function. -/
theorem locals_of_table (hs : Solid g) {m f : Red} (hf : InTree g f) {sp : Space} (k : Nat)
    (hsp : fieldSpace f.kind = some sp) : (symbolTable (Red.root g)).symbols.filter (kidOf (fieldSymOf f m sp k)) =
      ((localNodes f).zipIdx (paramNodes f).length).map fun q => slotSymOf q.1 f q.2 := by
  by_cases hk : f.kind = .MODULE_FIELD_FUNC
  · have e1 : (symbolTable (Red.root g)).symbols.filter (kidOf (fieldSymOf f m sp k)) =
        ((symbolTable (Red.root g)).declaredParamsAndLocals f.key).filter fun s => s.kind == .local := by
      unfold SymbolTable.declaredParamsAndLocals
      rw [List.filter_filter]
      apply List.filter_congr
      intro s hsm
      unfold kidOf
      show (shown s && s.region == f.key) = _
      by_cases hr : s.region = f.key
      · rw [beq_iff_eq.mpr hr]
        cases hsh : shown s with
        | true =>
          rcases shown_region hs hsm hsh with ⟨_, h2⟩ | ⟨_, _, h2⟩ | ⟨h1, _⟩
          · rw [hr] at h2; exact absurd (h2.symm.trans hk) (by decide)
          · rw [hr] at h2; exact absurd (h2.symm.trans hk) (by decide)
          · rw [h1]; rfl
        | false =>
          have : s.kind ≠ .local := by intro h; unfold shown at hsh; rw [h] at hsh; cases hsh
          rw [beq_eq_false_iff_ne.mpr this]; rfl
      · rw [beq_eq_false_iff_ne.mpr hr]; simp
    rw [e1, declared_eq hs hf hk, funcLocals_eq hs hf, localSlots_split, List.zipIdx_append, List.map_append, List.filter_append]
    have e2 : ((paramNodes f).zipIdx.map fun p => (⟨p.1.key, p.1.green, f.key, if p.2 < paramCount f then .param else .local, ⟨some p.2, nameOf p.1⟩⟩ : Sym)).filter
        (fun s => s.kind == .local) = [] := by
      rw [List.filter_eq_nil_iff]
      intro s hsm
      obtain ⟨q, hq, rfl⟩ := List.mem_map.mp hsm
      have h2 := (List.getElem?_eq_some_iff.mp (List.mem_zipIdx_iff_getElem?.mp hq)).1
      rw [paramCount_eq]
      simp only [if_pos h2]
      decide
    rw [e2, List.nil_append, Nat.zero_add]
    rw [List.filter_eq_self.mpr]
    · rfl
    · intro s hsm
      obtain ⟨q, hq, rfl⟩ := List.mem_map.mp hsm
      have h2 := (List.le_snd_of_mem_zipIdx hq)
      rw [paramCount_eq]
      simp only [if_neg (Nat.not_lt.mpr h2)]
      decide
  · have e1 : localNodes f = [] := by
      cases hl : localNodes f with
      | nil => rfl
      | cons a l => exact absurd (slots_local hs hf (by rw [hl]; simp)) hk
    rw [e1, List.zipIdx_nil, List.map_nil, List.filter_eq_nil_iff]
    intro s hsm hkd
    unfold kidOf at hkd
    rw [Bool.and_eq_true, beq_iff_eq] at hkd
    have hr : s.region.kind = f.kind := congrArg Key.kind hkd.2
    rcases shown_region hs hsm hkd.1 with ⟨_, h2⟩ | ⟨_, _, h2⟩ | ⟨_, h2⟩
    · rw [← hr, h2] at hsp; cases hsp
    · rw [← hr, h2] at hsp; cases hsp
    · exact hk (hr.symm.trans h2)

/-- A local has no children. -/
theorem local_no_kids (hs : Solid g) {f d : Red} (hf : InTree g f) {j : Nat} (hd : d ∈ localSlots f) :
    (symbolTable (Red.root g)).symbols.filter (kidOf (slotSymOf d f j)) = [] := by
  rw [List.filter_eq_nil_iff]
  intro s hsm hkd
  unfold kidOf at hkd
  rw [Bool.and_eq_true, beq_iff_eq] at hkd
  have hr : s.region.kind = d.kind := congrArg Key.kind hkd.2
  have hc := slot_class hf hd
  rw [← hr] at hc
  rcases shown_region hs hsm hkd.1 with ⟨_, h2⟩ | ⟨_, _, h2⟩ | ⟨_, h2⟩ <;> rw [h2] at hc <;> cases hc

/-! ### The entries -/

/-- The entry made for a symbol. -/
def entryOf (src : Text) (root : Red) (s : Sym) : DocSym :=
  match docEntry src root s with
  | .done (some (_, d)) => d
  | _ => .mk [] .variable default default []

theorem docEntry_some {src : Text} {root : Red} {s : Sym} {e : Key × DocSym} (h : docEntry src root s = .done (some e)) :
    e.1 = s.key ∧ e.2.children = [] ∧ shown s = true := by
  unfold docEntry at h
  split at h
  · cases h
  · rename_i hk
    obtain ⟨r, _, h⟩ := bind_done h
    cases h
    exact ⟨rfl, rfl, by unfold shown; rw [hk]; rfl⟩
  · rename_i k hk _
    obtain ⟨r, _, h⟩ := bind_done h
    obtain ⟨n, _, h⟩ := bind_done h
    split at h
    · cases h
      exact ⟨rfl, rfl, by unfold shown; rw [‹s.kind.docKind = _›]; rfl⟩
    · obtain ⟨r, _, h⟩ := bind_done h
      cases h
      exact ⟨rfl, rfl, by unfold shown; rw [‹s.kind.docKind = _›]; rfl⟩

theorem entryOf_children (src : Text) (root : Red) (s : Sym) : (entryOf src root s).children = [] := by
  unfold entryOf
  split
  · rename_i d h; exact (docEntry_some h).2.1
  · rfl

theorem docEntry_none {src : Text} {root : Red} {s : Sym} (h : docEntry src root s = .done none) : shown s = false := by
  unfold docEntry at h
  split at h
  · rename_i hk; unfold shown; rw [hk]; rfl
  · obtain ⟨r, _, h⟩ := bind_done h; cases h
  · obtain ⟨r, _, h⟩ := bind_done h
    obtain ⟨n, _, h⟩ := bind_done h
    split at h
    · cases h
    · obtain ⟨r, _, h⟩ := bind_done h; cases h

theorem entries_eq {src : Text} {root : Red} : ∀ {l : List Sym} {es : List (Key × DocSym)},
    Ans.filterMapL (docEntry src root) l = .done es →
      es = (l.filter shown).map (fun s => (s.key, entryOf src root s)) ∧
        ∀ s ∈ l, shown s = true → docEntry src root s = .done (some (s.key, entryOf src root s))
  | [], es, h => by simp only [Ans.filterMapL] at h; cases h; exact ⟨rfl, fun s h => by cases h⟩
  | a :: l, es, h => by
    simp only [Ans.filterMapL] at h
    obtain ⟨o, ho, h⟩ := bind_done h
    obtain ⟨os, hos, h⟩ := bind_done h
    obtain ⟨h1, h2⟩ := entries_eq hos
    cases o with
    | none =>
      have h3 := docEntry_none ho
      cases h
      refine ⟨by rw [List.filter_cons, if_neg (by rw [h3]; simp)]; exact h1, ?_⟩
      intro s hsm hsh
      rcases List.mem_cons.mp hsm with rfl | hsm
      · rw [h3] at hsh; cases hsh
      · exact h2 s hsm hsh
    | some e =>
      obtain ⟨h3, h4, h5⟩ := docEntry_some ho
      have h6 : e = (a.key, entryOf src root a) := by
        unfold entryOf; rw [ho]; simp only
        rw [← h3]
      cases h
      refine ⟨by rw [List.filter_cons, if_pos h5, List.map_cons, ← h1, ← h6]; rfl, ?_⟩
      intro s hsm hsh
      rcases List.mem_cons.mp hsm with rfl | hsm
      · rw [ho, h6]
      · exact h2 s hsm hsh

theorem insert_all {es : List (Key × DocSym)} (h : es.Pairwise fun a b => a.1 ≠ b.1) : ∀ (m : DocMap),
    (∀ a ∈ m, ∀ b ∈ es, a.1 ≠ b.1) → es.foldl DocMap.insert m = m ++ es := by
  induction es with
  | nil => intro m _; simp
  | cons e es ih =>
    intro m hm
    rw [List.pairwise_cons] at h
    have e1 : DocMap.insert m e = m ++ [e] := by
      unfold DocMap.insert
      rw [List.filter_eq_self.mpr]
      intro a ha
      rw [beq_eq_false_iff_ne.mpr (hm a ha e (by simp))]; rfl
    rw [List.foldl_cons, e1, ih h.2]
    · simp
    · intro a ha b hb
      rcases List.mem_append.mp ha with ha | ha
      · exact hm a ha b (by simp [hb])
      · rw [List.mem_singleton] at ha; subst ha; exact h.1 b hb

/-- The finished entry of a symbol, to a depth. -/
def finished (src : Text) (root : Red) (syms : List Sym) : Nat → Sym → DocSym
  | 0, s => entryOf src root s
  | n + 1, s => (entryOf src root s).withKids ((syms.filter (kidOf s)).map (finished src root syms n))

/-- A symbol of the table that is shown is of a module, of a field or of a local. -/
theorem shown_cases (hs : Solid g) {s : Sym} (h : s ∈ (symbolTable (Red.root g)).symbols) (hsh : shown s = true) :
    (∃ m ∈ (Red.root g).children, s = moduleSym g m) ∨
    (∃ m ∈ (Red.root g).children, ∃ k x sp, (fields m)[k]? = some x ∧ fieldSpace x.kind = some sp ∧ s = fieldSymOf x m sp k) ∨
    (∃ f, InTree g f ∧ f.kind = .MODULE_FIELD_FUNC ∧ ∃ d j, d ∈ localSlots f ∧ s = slotSymOf d f j) := by
  obtain ⟨x, hx⟩ := (mem_symbols_iff hs).mp h
  cases hx with
  | module h1 => exact .inl ⟨_, h1, rfl⟩
  | field h1 h2 h3 => exact .inr (.inl ⟨_, h1, _, _, _, h2, h3, rfl⟩)
  | slot h1 h2 h3 => exact .inr (.inr ⟨_, h1, h2, _, _, List.mem_of_getElem? h3, rfl⟩)
  | @ref x r sp i h1 h2 h3 h4 => cases sp <;> cases hsh
  | block h1 h2 h3 => cases hsh

theorem finished_step (hs : Solid g) (src : Text) {s : Sym} (h : s ∈ (symbolTable (Red.root g)).symbols) :
    finished src (Red.root g) (symbolTable (Red.root g)).symbols 2 s =
      (entryOf src (Red.root g) s).withKids (((symbolTable (Red.root g)).symbols.filter (kidOf s)).map
        (finished src (Red.root g) (symbolTable (Red.root g)).symbols 2)) := by
  have kids : ∀ {c : Sym}, c ∈ (symbolTable (Red.root g)).symbols.filter (kidOf s) →
      c ∈ (symbolTable (Red.root g)).symbols ∧ shown c = true ∧ c.region = s.key := by
    intro c hc
    obtain ⟨h1, h2⟩ := List.mem_filter.mp hc
    unfold kidOf at h2
    rw [Bool.and_eq_true, beq_iff_eq] at h2
    exact ⟨h1, h2⟩
  have leaf : ∀ {f d : Red} {j n : Nat}, InTree g f → d ∈ localSlots f →
      finished src (Red.root g) (symbolTable (Red.root g)).symbols n (slotSymOf d f j) = entryOf src (Red.root g) (slotSymOf d f j) := by
    intro f d j n hf hd
    cases n with
    | zero => rfl
    | succ n =>
      rw [finished, local_no_kids hs hf hd]
      exact DocSym.withKids_self (entryOf_children _ _ _)
  have mid : ∀ {m x : Red} {k : Nat} {sp : Space} {n : Nat}, InTree g x → fieldSpace x.kind = some sp →
      finished src (Red.root g) (symbolTable (Red.root g)).symbols (n + 1) (fieldSymOf x m sp k) =
        (entryOf src (Red.root g) (fieldSymOf x m sp k)).withKids (((localNodes x).zipIdx (paramNodes x).length).map
          fun q => entryOf src (Red.root g) (slotSymOf q.1 x q.2)) := by
    intro m x k sp n hx hsp
    rw [finished, locals_of_table hs hx k hsp, List.map_map]
    congr 1
    apply List.map_congr_left
    intro q hq
    refine leaf hx ?_
    rw [localSlots_split]
    exact List.mem_append.mpr (.inr (List.fst_mem_of_mem_zipIdx hq))
  rw [finished]
  congr 1
  apply List.map_congr_left
  intro c hc
  obtain ⟨h1, h2, h3⟩ := kids hc
  rcases shown_cases hs h1 h2 with ⟨m, hm, rfl⟩ | ⟨m, hm, k, x, sp, h4, h5, rfl⟩ | ⟨f, hf, hk, d, j, h4, rfl⟩
  · exfalso
    obtain ⟨y, hy⟩ := (mem_symbols_iff hs).mp h
    have h5 := hy.cls hs
    have h6 : (Red.root g).kind = y.kind := by
      have := congrArg Key.kind h3
      rw [(hy.inTree hs).2.1] at this
      exact this
    rw [← h6, root_kind hs] at h5
    cases h5
  · have hx : InTree g x := InTree.descendant (InTree.child (InTree.root g) hm) (List.mem_filter.mp (List.mem_of_getElem? h4)).1
    rw [mid hx h5, mid hx h5]
  · rw [leaf hf h4, leaf hf h4]


theorem root_not_sym (hs : Solid g) {s c : Sym} (hc : c ∈ (symbolTable (Red.root g)).symbols) (h : s.region.kind = .ROOT) :
    s.region ≠ c.key := by
  intro e
  obtain ⟨y, hy⟩ := (mem_symbols_iff hs).mp hc
  have h5 := hy.cls hs
  have h6 : c.key.kind = y.kind := by rw [(hy.inTree hs).2.1]; rfl
  rw [← h6, ← e, h] at h5
  cases h5

/-- The answer, in terms of the table. -/
theorem documentSymbols_eq (hs : Solid g) {src : Text} {ds : List DocSym} (h : documentSymbols src (Red.root g) = .done ds) :
    ds = ((((symbolTable (Red.root g)).symbols.filter shown).filter fun s => s.region.kind == .ROOT &&
        !((symbolTable (Red.root g)).symbols.filter (kidOf s)).isEmpty).map
          (finished src (Red.root g) (symbolTable (Red.root g)).symbols 2)).reverse ∧
      ∀ s ∈ (symbolTable (Red.root g)).symbols, shown s = true →
        docEntry src (Red.root g) s = .done (some (s.key, entryOf src (Red.root g) s)) := by
  unfold documentSymbols at h
  obtain ⟨es, hes, h⟩ := bind_done h
  obtain ⟨h1, h2⟩ := entries_eq hes
  refine ⟨?_, h2⟩
  have hd := symbols_distinct hs
  generalize hsy : (symbolTable (Red.root g)).symbols = syms at *
  have hd1 : es.Pairwise fun a b => a.1 ≠ b.1 := by
    rw [h1, List.pairwise_map]
    exact hd.filter shown
  simp only [Ans.done.injEq] at h
  rw [insert_all hd1 [] (by simp), List.nil_append, h1, place_all (F := finished src (Red.root g) syms 2) hd
    (fun P c T e hr hc => parent_before hs (by rw [hsy]; exact e) hr hc)
    (fun s _ _ hr c hc => root_not_sym hs (by rw [hsy]; exact hc) hr) (entryOf_children _ _)
    (fun s hsm => by rw [← hsy] at hsm ⊢; exact finished_step hs src hsm)] at h
  rw [← h]
  congr 1
  unfold stateAfter
  have e1 : ((syms.filter shown).filter fun s => (syms.filter fun s => s.region.kind != .ROOT).all fun t => t.key != s.key) =
      (syms.filter shown).filter fun s => s.region.kind == .ROOT := by
    apply List.filter_congr
    intro s hsm
    have hsm := (List.mem_filter.mp hsm).1
    rw [Bool.eq_iff_iff, List.all_eq_true, beq_iff_eq]
    constructor
    · intro hall
      apply Classical.byContradiction
      intro hr
      have := hall s (List.mem_filter.mpr ⟨hsm, by simpa using hr⟩)
      simp at this
    · intro hr t ht
      obtain ⟨h3, h4⟩ := List.mem_filter.mp ht
      rw [bne_iff_ne] at h4 ⊢
      intro e
      rw [← hsy] at h3 hsm
      obtain ⟨x, hx⟩ := (mem_symbols_iff hs).mp h3
      obtain ⟨y, hy⟩ := (mem_symbols_iff hs).mp hsm
      have := (hx.key_inj hs hy e).2
      rw [this] at h4
      exact h4 hr
  rw [e1, List.filterMap_map]
  have hkids : ∀ s ∈ syms, (syms.filter fun s => s.region.kind != .ROOT).filter (kidOf s) = syms.filter (kidOf s) := by
    intro s hsm
    rw [List.filter_filter]
    apply List.filter_congr
    intro c hc
    cases hk : kidOf s c with
    | false => rfl
    | true =>
      rw [Bool.true_and, bne_iff_ne]
      intro hr
      unfold kidOf at hk
      rw [Bool.and_eq_true, beq_iff_eq] at hk
      exact root_not_sym hs (by rw [hsy]; exact hsm) hr hk.2
  have H : ∀ W : List Sym, (∀ s ∈ W, s ∈ syms) → (W.filter fun s => s.region.kind == .ROOT).filterMap
        ((fun x : Key × DocSym => if x.2.children.isEmpty = true then none else some x.2.flip) ∘ fun s =>
          (s.key, (entryOf src (Red.root g) s).withKids
            (((syms.filter fun s => s.region.kind != .ROOT).filter (kidOf s)).map (finished src (Red.root g) syms 2)).reverse)) =
      (W.filter fun s => s.region.kind == .ROOT && !(syms.filter (kidOf s)).isEmpty).map (finished src (Red.root g) syms 2) := by
    intro W
    induction W with
    | nil => intro _; rfl
    | cons s W ih =>
      intro hW
      have hsm := hW s (by simp)
      have ih := ih fun s hs => hW s (List.mem_cons_of_mem _ hs)
      rw [List.filter_cons, List.filter_cons]
      cases hr : s.region.kind == .ROOT with
      | false => rw [if_neg (by simp), Bool.false_and, if_neg (by simp)]; exact ih
      | true =>
        rw [if_pos rfl, Bool.true_and, List.filterMap_cons]
        simp only [Function.comp, hkids s hsm, DocSym.withKids_children, List.isEmpty_reverse, List.isEmpty_map]
        cases he : (syms.filter (kidOf s)).isEmpty with
        | true => simp only [if_true, Bool.not_true]; rw [if_neg (by simp)]; exact ih
        | false =>
          simp only [Bool.not_false, if_true]
          rw [if_neg (by simp), List.map_cons]
          simp only
          refine congr (congrArg _ ?_) ih
          rw [DocSym.flip_withKids, List.reverse_reverse]
          rw [← hsy] at hsm ⊢
          exact (finished_step hs src hsm).symm
  exact H _ fun s hsm => (List.mem_filter.mp hsm).1

/-- The symbols of the modules, in order. -/
theorem modules_of_table (hs : Solid g) (p : Sym → Bool) :
    ((symbolTable (Red.root g)).symbols.filter shown).filter (fun s => s.region.kind == .ROOT && p s) =
      ((Red.root g).children.filter fun m => p (moduleSym g m)).map (moduleSym g) := by
  rw [symbolTable_symbols, symbols_by_module hs, List.filter_filter]
  have H : ∀ ms : List Red, (∀ m ∈ ms, m ∈ (Red.root g).children) →
      (ms.flatMap fun m => symsFrom 0 m.descendants).filter (fun s => (s.region.kind == .ROOT && p s) && shown s) =
        (ms.filter fun m => p (moduleSym g m)).map (moduleSym g) := by
    intro ms
    induction ms with
    | nil => intro _; rfl
    | cons m ms ih =>
      intro hms
      have hm := hms m (by simp)
      have hmk := root_children hs hm
      rw [List.flatMap_cons, List.filter_append, ih fun m h => hms m (List.mem_cons_of_mem _ h), Red.descendants_eq, symsFrom,
        symsOf_module hm hs, List.filter_append, List.filter_cons]
      have e : (symsFrom (nextId 0 m.kind) (m.children.flatMap Red.descendants)).filter
          (fun s => (s.region.kind == .ROOT && p s) && shown s) = [] := by
        rw [List.filter_eq_nil_iff]
        intro s hsm hc
        rw [Bool.and_eq_true, Bool.and_eq_true, beq_iff_eq] at hc
        obtain ⟨a, n, b, h1, h2⟩ := mem_symsFrom.mp hsm
        have hn : n ∈ m.children.flatMap Red.descendants := by rw [h1]; simp
        have hnt : InTree g n := InTree.descendant (InTree.child (InTree.root g) hm)
          (by rw [Red.descendants_eq]; exact List.mem_cons_of_mem _ hn)
        have hnk := no_module_below hs hm n hn
        have hin : s ∈ (symbolTable (Red.root g)).symbols := by
          rw [symbolTable_symbols, symbols_by_module hs, List.mem_flatMap]
          refine ⟨m, hm, ?_⟩
          rw [Red.descendants_eq, symsFrom]
          exact List.mem_append.mpr (.inr hsm)
        rcases shown_region hs hin hc.2 with ⟨h3, _⟩ | ⟨_, _, h3⟩ | ⟨_, h3⟩
        · obtain ⟨x, hx, hkx, _, ho⟩ := symsOf_owns hs hnt _ h2
          obtain ⟨y, hy⟩ := (mem_symbols_iff hs).mp hin
          have h5 := hy.cls hs
          have h6 : y.kind = x.kind := by
            have := hkx.symm.trans (hy.inTree hs).2.1
            exact (congrArg Key.kind this).symm
          rw [h3, h6] at h5
          have h7 : x.kind = .MODULE := by
            generalize x.kind = k at h5
            cases k <;> first | rfl | (exfalso; revert h5; decide)
          cases ho with
          | self _ => exact hnk h7
          | ref h8 _ => rw [h5] at h8; cases h8
          | slot h8 _ => rw [h5] at h8; cases h8
        · rw [hc.1.1] at h3; cases h3
        · rw [hc.1.1] at h3; cases h3
      rw [e, List.filter_nil, List.filter_cons]
      have e2 : ((moduleSym g m).region.kind == .ROOT && p (moduleSym g m) && shown (moduleSym g m)) = p (moduleSym g m) := by
        rw [show shown (moduleSym g m) = true from rfl, Bool.and_true,
          show ((moduleSym g m).region.kind == Kind.ROOT) = true from beq_iff_eq.mpr (root_kind hs), Bool.true_and]
      rw [e2]
      cases p (moduleSym g m) <;> rfl
  exact H _ fun m h => h

end Verif
