import Verif.Lemmas.SameMeaning
import Verif.Props.C19
/-!
Helper lemmas: editing the names of a document and editing them back.
-/
namespace Verif
open Spec

/-- Renaming a symbol answers with edits. -/
theorem rename_some {g : Green} (hs : Solid g) {src d : Text} (ht : g.text ++ d = src) {u v : Text} (hu : src = u ++ v)
    {t : Tok} {x : Red} (hc : CursorOn (Red.root g) (bytes u) t) (hx : t.parent = some x) (hk : t.kind = .IDENT) {S : Sym}
    (hS : IsSym g S x) {name : Text} (hn : IsIdent name) :
    ∃ es, rename src (Red.root g) (posAfter u) name = .done (.edits (some es)) := by
  subst hu
  obtain ⟨b, hb⟩ := rename_ok hs ht (p := posAfter u) (fun off ho => by
    rw [offsetAt_eq] at ho
    cases ho
    have := Red.tokens_within hc.mem
    have := hc.touch
    unfold Tok.stop at *
    omega) name
  have hv : validName name = true := by
    cases hv : validName name with
    | true => rfl
    | false => exact absurd hn ((C19_partial (u ++ v) (Red.root g) (posAfter u) name).mp (by unfold rename; simp [hv]))
  have hb' := hb
  unfold rename at hb'
  rw [if_pos hv, cursor_token hs hc] at hb'
  simp only [Ans.bind, hk, beq_self_eq_true, if_true] at hb'
  obtain ⟨o, ho, hb'⟩ := bind_done hb'
  cases hb'
  cases o with
  | some es => exact ⟨es, hb⟩
  | none =>
    exfalso
    unfold renameImpl at ho
    rw [hx] at ho
    simp only at ho
    have hby := byKey_eq hs ((mem_symbols_iff hs).mpr ⟨x, hS⟩)
    rw [(hS.inTree hs).2.1] at hby
    rw [hby] at ho
    simp only at ho
    obtain ⟨_, _, ho⟩ := bind_done ho
    obtain ⟨_, _, ho⟩ := bind_done ho
    cases ho

/-- Evaluates whether a token is the name of its node, and the node the `i`-th of the document. -/
def firstTest (root : Red) (i : Nat) (t : Tok) (x : Red) : Bool :=
  (match x.token .IDENT with
   | some t' => t'.off == t.off
   | none => false) &&
  (match root.descendants[i]? with
   | some n => n.key == x.key
   | none => false)

theorem firstTest_spec {g : Green} (hs : Solid g) {i n : Nat} {t : Tok} {x : Red} (hc : CursorOn (Red.root g) n t)
    (hx : t.parent = some x) (h : firstTest (Red.root g) i t x = true) :
    x.token .IDENT = some t ∧ (Red.root g).descendants[i]? = some x := by
  unfold firstTest at h
  rw [Bool.and_eq_true] at h
  obtain ⟨b3, b4⟩ := h
  obtain ⟨_, hx', hxt, _⟩ := tok_parent hc.mem
  rw [hx] at hx'; cases hx'
  have h1 : x.token .IDENT = some t := by
    cases hk : x.token .IDENT with
    | none => rw [hk] at b3; cases b3
    | some t' =>
      rw [hk] at b3
      rw [InTree.off_inj hs (tok_mem hxt (token_mem hk).1) hc.mem (by simpa using b3)]
  refine ⟨h1, ?_⟩
  cases hn : (Red.root g).descendants[i]? with
  | none => rw [hn] at b4; cases b4
  | some n =>
    rw [hn] at b4
    have := (tok_parent_nonempty hs hc.mem hx .IDENT (token_mem h1).2 (by simp)).2.1
    rw [InTree.key_inj hs (List.mem_of_getElem? hn) hxt (by simpa using b4) this]

namespace Moved

theorem retok_back {F F' : Nat → Bool} {name old : Text} : ∀ (l : List (Kind × Text)) (o o' : Nat),
    (∀ a t b, l = a ++ (.IDENT, t) :: b → F' (o' + bytes (txt (retok F name o a))) = F (o + bytes (txt a)) ∧
      (F (o + bytes (txt a)) = true → t = old)) → retok F' old o' (retok F name o l) = l
  | [], _, _, _ => rfl
  | (k, t) :: l, o, o', h => by
    rw [retok, retok]
    have ih := retok_back l (o + bytes t) (o' + bytes (if k == .IDENT && F o then name else t)) fun a t' b e => by
      have := h ((k, t) :: a) t' b (by rw [e]; rfl)
      simp only [retok, txt, List.map_cons, List.flatten_cons, bytes_append] at this ⊢
      rw [Nat.add_assoc, Nat.add_assoc]
      exact this
    rw [ih]
    congr 2
    by_cases hk : k = .IDENT
    · subst hk
      have := h [] t l rfl
      simp only [txt, retok, List.map_nil, List.flatten_nil, bytes_nil, Nat.add_zero] at this
      rw [this.1]
      cases hF : F o with
      | true => simp [this.2 hF]
      | false => simp
    · simp [hk]

theorem toks_token {g : Green} (hs : Solid g) {a b : List (Kind × Text)} {k : Kind} {t : Text} (h : g.toks = a ++ (k, t) :: b) :
    ∃ tk ∈ (Red.root g).tokens, tk.kind = k ∧ tk.text = t ∧ tk.off = bytes (txt a) := by
  have hl := (tokens_lined hs).1
  have ht : (Red.root g).tokens.map (fun t => (t.kind, t.text)) = a ++ (k, t) :: b := by
    rw [← h]
    obtain ⟨cs, rfl⟩ := hs.root
    exact Red.tokens_text _ _
  obtain ⟨l1, l2, e1, e2, e3⟩ := List.map_eq_append_iff.mp ht
  obtain ⟨tk, l3, e4, e5, e6⟩ := List.map_eq_cons_iff.mp e3
  rw [e1, e4] at hl
  have := (lined_append.mp hl).2.1
  refine ⟨tk, by rw [e1, e4]; simp, congrArg Prod.fst e5, congrArg Prod.snd e5, ?_⟩
  rw [this, ← e2]
  simp [txt, textsOf, List.flatMap, Function.comp_def]

section
variable {F F' : Nat → Bool} {name old : Text} {g : Green} (hs : Solid g)
include hs
local notation "M" => mv F name (Green.toks g)

/-- If the same nodes are edited back, the tokens are the old ones. -/
theorem edit_back (hn : name ≠ [])
    (hm : ∀ o, F o = true → ∃ y t, InTree g y ∧ y.token .IDENT = some t ∧ t.off = o)
    (hm' : ∀ o, F' o = true → ∃ y t, InTree g y ∧ y.token .IDENT = some t ∧ phi F name g.toks t.off = o)
    (hE : ∀ y, InTree g y → (Edited F' (M y) ↔ Edited F y)) (hO : ∀ y, InTree g y → Edited F y → nameOf y = some old) :
    retok F' old 0 (retok F name 0 g.toks) = g.toks := by
  refine retok_back _ 0 0 fun a t b e => ?_
  rw [Nat.zero_add, Nat.zero_add]
  obtain ⟨tk, h1, h2, h3, h4⟩ := toks_token hs e
  have hphi : phi F name g.toks (bytes (txt a)) = bytes (txt (retok F name 0 a)) := by
    have := shift_split (F := F) (name := name) a ((.IDENT, t) :: b) 0 fun x hx => hs.tokens x (by rw [e]; exact List.mem_append_left _ hx)
    rw [Nat.zero_add, ← e] at this
    exact this
  rw [← hphi]
  have hfw : F (bytes (txt a)) = true → F' (phi F name g.toks (bytes (txt a))) = true ∧ t = old := by
    intro hF
    obtain ⟨y, t1, h5, h6, h7⟩ := hm _ hF
    have := InTree.off_inj hs (tok_mem h5 (token_mem h6).1) h1 (by rw [h7, h4])
    subst this
    have he : Edited F y := ⟨t1, h6, by rw [h7]; exact hF⟩
    obtain ⟨t2, h8, h9⟩ := (hE y h5).mpr he
    rw [mv_token hs h5, h6] at h8
    cases h8
    have hO' := hO y h5 he
    rw [nameOf_token h6] at hO'
    exact ⟨by rw [← h7]; exact h9, by rw [← h3]; exact Option.some.inj hO'⟩
  refine ⟨?_, fun hF => (hfw hF).2⟩
  cases hF : F (bytes (txt a)) with
  | true => exact (hfw hF).1
  | false =>
    cases hF' : F' (phi F name g.toks (bytes (txt a))) with
    | false => rfl
    | true =>
      exfalso
      obtain ⟨y, t1, h5, h6, h7⟩ := hm' _ hF'
      have ht1 := tok_mem h5 (token_mem h6).1
      have hb : Bound g.toks t1.off := by
        have hl := (tokens_lined hs).1
        obtain ⟨l1, l2, e1⟩ := List.append_of_mem ht1
        rw [e1] at hl
        have h8 := (lined_append.mp hl).2.1
        have ht : (Red.root g).tokens.map (fun t => (t.kind, t.text)) = g.toks := by
          obtain ⟨cs, rfl⟩ := hs.root
          exact Red.tokens_text _ _
        rw [e1, List.map_append] at ht
        refine ⟨_, _, ht.symm, ?_⟩
        rw [h8]
        simp [txt, textsOf, List.flatMap, Function.comp_def]
      have := hb.inj hs.tokens hn ⟨a, _, e, rfl⟩ h7
      obtain ⟨t2, h8, h9⟩ := (hE y h5).mp ⟨_, by rw [mv_token hs h5, h6]; rfl, by
        show F' (phi F name g.toks t1.off) = true
        rw [h7]; exact hF'⟩
      rw [h6] at h8
      cases h8
      rw [this, hF] at h9
      cases h9

theorem inTree_mv {y : Red} (h : InTree g y) : InTree (relabel F name 0 g) (M y) := by
  have hd := mv_descendants (F := F) (name := name) hs (InTree.root g)
  rw [mv_root hs] at hd
  show M y ∈ (Red.root (relabel F name 0 g)).descendants
  rw [hd]
  exact List.mem_map_of_mem h

theorem mv_inTree {y' : Red} (h : InTree (relabel F name 0 g) y') : ∃ y, InTree g y ∧ y' = M y := by
  have hd := mv_descendants (F := F) (name := name) hs (InTree.root g)
  rw [mv_root hs] at hd
  have h : y' ∈ (Red.root (relabel F name 0 g)).descendants := h
  rw [hd] at h
  obtain ⟨y, h1, h2⟩ := List.mem_map.mp h
  exact ⟨y, h1, h2.symm⟩

theorem mv_named_inj (hn : name ≠ []) {m n : Red} (hm : InTree g m) (hn' : InTree g n) (hna : (nameOf n).isSome)
    (h : M m = M n) : m = n := by
  refine mv_inj hs hn hm hn' ?_ h
  cases ht : n.token .IDENT with
  | none => unfold nameOf at hna; rw [ht] at hna; cases hna
  | some t =>
    exact (tok_parent_nonempty hs (tok_mem hn' (token_mem ht).1) (childTok_parent (token_mem ht).1) .IDENT (token_mem ht).2
      (by simp)).2.1

theorem root_children_mv : (Red.root (relabel F name 0 g)).children = (Red.root g).children.map M := by
  rw [← mv_root hs, mv_children hs (InTree.root g)]

theorem mv_home (hn : name ≠ []) {s x : Red} {sp : Space} (h : Home g s sp x) : Home (relabel F name 0 g) (M s) sp (M x) := by
  cases h with
  | field h1 h2 =>
    have := (InTree.root g).child h1
    exact .field (by rw [root_children_mv hs]; exact List.mem_map_of_mem h1)
      (by rw [mv_indexSpace hs this]; exact List.mem_map_of_mem h2)
  | slot h1 h2 h3 => exact .slot (inTree_mv hs h1) h2 (by rw [mv_localSlots hs h1]; exact List.mem_map_of_mem h3)
  | ref h1 h2 h3 => exact .ref (inTree_mv hs h1) ((mv_refersTo hs hn h1).mpr h2) (by rw [mv_scopeOf, h3]; rfl)

theorem home_mv (hn : name ≠ []) {s' x' : Red} {sp : Space} (h : Home (relabel F name 0 g) s' sp x') :
    ∃ s x, s' = M s ∧ x' = M x ∧ Home g s sp x := by
  cases h with
  | field h1 h2 =>
    rw [root_children_mv hs] at h1
    obtain ⟨s, h3, rfl⟩ := List.mem_map.mp h1
    rw [mv_indexSpace hs ((InTree.root g).child h3)] at h2
    obtain ⟨x, h4, rfl⟩ := List.mem_map.mp h2
    exact ⟨s, x, rfl, rfl, .field h3 h4⟩
  | slot h1 h2 h3 =>
    obtain ⟨s, h4, rfl⟩ := mv_inTree hs h1
    rw [mv_localSlots hs h4] at h3
    obtain ⟨x, h5, rfl⟩ := List.mem_map.mp h3
    exact ⟨s, x, rfl, rfl, .slot h4 h2 h5⟩
  | ref h1 h2 h3 =>
    obtain ⟨x, h4, rfl⟩ := mv_inTree hs h1
    rw [mv_scopeOf] at h3
    cases hsc : scopeOf sp x with
    | none => rw [hsc] at h3; cases h3
    | some s =>
      rw [hsc] at h3
      cases h3
      exact ⟨s, x, rfl, rfl, .ref h4 ((mv_refersTo hs hn h4).mp h2) hsc⟩

/-- Scopes are where they were. -/
theorem mv_sameScope (hn : name ≠ []) {x y : Red} (hx : InTree g x) (hy : InTree g y) (hxn : (nameOf x).isSome)
    (hyn : (nameOf y).isSome) : SameScope (relabel F name 0 g) (M x) (M y) ↔ SameScope g x y := by
  constructor
  · rintro ⟨s, sp, sp', h1, h2, h3, h4⟩
    obtain ⟨s1, x1, rfl, e1, h5⟩ := home_mv hs hn h3
    obtain ⟨s2, y1, e2, e3, h6⟩ := home_mv hs hn h4
    have := mv_named_inj hs hn (home_inTree h5) hx hxn e1.symm
    subst this
    have := mv_named_inj hs hn (home_inTree h6) hy hyn e3.symm
    subst this
    obtain ⟨q1, q2⟩ := home_scope hs h5 h1
    obtain ⟨q3, q4⟩ := home_scope hs h6 h2
    have := mv_inj hs hn q1 q3 q4 e2
    subst this
    exact ⟨_, sp, sp', h1, h2, h5, h6⟩
  · rintro ⟨s, sp, sp', h1, h2, h3, h4⟩
    exact ⟨_, sp, sp', h1, h2, mv_home hs hn h3, mv_home hs hn h4⟩

end

/-- What is common to symbols of all kinds: if the same nodes are edited in both documents, the second renaming undoes the
first. -/
theorem rename_back {dbg : Bool} {src : Text} {g : Green} {errs : List Err} {d : Text} (h : parse dbg src = .tree g errs d)
    (htext : g.text ++ d = src) {p : Pos} {name : Text} {es : List TextEdit}
    (hr : rename src (Red.root g) p name = .done (.edits (some es))) (hname : name ≠ [])
    {P : Red → Prop} (hP : ∀ y, P y → InTree g y)
    (hes : ∀ e, e ∈ es ↔ e.newText = name ∧ ∃ y k, P y ∧ y.token .IDENT = some k ∧ IsRange src (k.off, k.off + bytes k.text) e.range)
    {places : Nat → Bool} (hpl : ∀ off, places off = true ↔ EditedAt src es off)
    {errs' : List Err} (h' : parse dbg (applyEdits (es.map asEdit) src) = .tree (relabel places name 0 g) errs' d)
    {p' : Pos} {old : Text} {es' : List TextEdit}
    (hr' : rename (applyEdits (es.map asEdit) src) (Red.root (relabel places name 0 g)) p' old = .done (.edits (some es')))
    {P' : Red → Prop} (hP' : ∀ y, P' y → InTree (relabel places name 0 g) y)
    (hes' : ∀ e, e ∈ es' ↔ e.newText = old ∧ ∃ y k, P' y ∧ y.token .IDENT = some k ∧
      IsRange (applyEdits (es.map asEdit) src) (k.off, k.off + bytes k.text) e.range)
    (hsame : ∀ y, InTree g y → (nameOf y).isSome → (P' (mv places name g.toks y) ↔ P y))
    (hold : ∀ y, P y → (nameOf y).isSome → nameOf y = some old) :
    applyEdits (es'.map asEdit) (applyEdits (es.map asEdit) src) = src := by
  have hs := parse_solid h
  have hs' := parse_solid h'
  obtain ⟨places1, q1, q2⟩ := rename_applied h htext hr
  have : places1 = places := by
    funext off
    have := (q1 off).trans (hpl off).symm
    cases ha : places1 off <;> cases hb : places off <;> simp [ha, hb] at this ⊢
  subst this
  have htext' : (relabel places1 name 0 g).text ++ d = applyEdits (es.map asEdit) src := by
    rw [q2, ← toks_texts, relabel_toks]
  obtain ⟨places', q3, q4⟩ := rename_applied h' htext' hr'
  rw [relabel_toks] at q4
  have hed : ∀ {y}, InTree g y → (Edited places1 y ↔ P y ∧ (nameOf y).isSome) := edited_iff hs htext hes hP hpl
  have hed' : ∀ {y}, InTree (relabel places1 name 0 g) y → (Edited places' y ↔ P' y ∧ (nameOf y).isSome) :=
    edited_iff hs' htext' hes' hP' q3
  have hmark : ∀ {src : Text} {es : List TextEdit} {name : Text} {P : Red → Prop} {F : Nat → Bool},
      (∀ e, e ∈ es ↔ e.newText = name ∧ ∃ y k, P y ∧ y.token .IDENT = some k ∧ IsRange src (k.off, k.off + bytes k.text) e.range) →
      (∀ off, F off = true ↔ EditedAt src es off) → ∀ o, F o = true → ∃ y t, P y ∧ y.token .IDENT = some t ∧ t.off = o := by
    intro src es name P F hes hF o ho
    obtain ⟨e, he, stop, ⟨a, b, e1, e2, e3⟩, _⟩ := (hF _).mp ho
    obtain ⟨_, y1, k, h3, h4, ⟨a', b', f1, f2, f3⟩, _⟩ := (hes e).mp he
    have := posAfter_inj e1 f1 (e3.symm.trans f3)
    exact ⟨y1, k, h3, h4, by simp only at e2 f2; omega⟩
  rw [q4, edit_back hs hname (fun o ho => ?_) (fun o ho => ?_) (fun y hy => ?_) (fun y hy he => ?_)]
  · rw [toks_texts]; exact htext
  · obtain ⟨y, t, r1, r2, r3⟩ := hmark hes hpl o ho
    exact ⟨y, t, hP y r1, r2, r3⟩
  · obtain ⟨y', t', r1, r2, r3⟩ := hmark hes' q3 o ho
    obtain ⟨y, hy, rfl⟩ := mv_inTree hs (hP' y' r1)
    rw [mv_token hs hy] at r2
    obtain ⟨t, r4, r5⟩ := Option.map_eq_some_iff.mp r2
    exact ⟨y, t, hy, r4, by rw [← r3, ← r5]; rfl⟩
  · rw [hed' (inTree_mv hs hy), hed hy, nameOf_isSome hs hy]
    constructor
    · rintro ⟨r1, r2⟩; exact ⟨(hsame y hy r2).mp r1, r2⟩
    · rintro ⟨r1, r2⟩; exact ⟨(hsame y hy r2).mpr r1, r2⟩
  · obtain ⟨r1, r2⟩ := (hed hy).mp he
    exact hold y r1 r2

/-! ### Labels -/

/-- A named branch operand resolves to the block the code finds for it, if it does so directly. -/
theorem nearest_resolved {g : Green} (hs : Solid g) {x d : Red} {t : Tok} (hxt : InTree g x) (htk : x.token .IDENT = some t)
    (hrx : RefersTo x .label) (hout : OutsideConditions x) (hdir : Directly x d) (hres : Resolves x d) :
    ∃ r, scopeOf .label x = some r ∧ d ∈ nest r ∧ nearest r (.name t.text) = some d := by
  have hxl := branch_not_label hs hxt hrx
  obtain ⟨r, h1, h2⟩ := hdir
  refine ⟨r, h1, h2, ?_⟩
  obtain ⟨sp, i, r1, r2, r3⟩ := hres
  have := refersTo_fun r1 hrx
  subst this
  rw [indexOf_token htk] at r2
  cases r2
  have hp := run_prefix h1
  rw [← labelsOf_ancestors hxl hout] at hp
  simp only [Denotes, if_true] at r3
  have hn : (nameOf d == some t.text) = true := List.find?_some (p := fun b => nameOf b == some t.text) r3
  have hsome : ((run r).find? (fun b => nameOf b == some t.text)).isSome := by
    rw [List.find?_isSome]; exact ⟨d, h2, hn⟩
  obtain ⟨d', hd'⟩ := Option.isSome_iff_exists.mp hsome
  have h3 := prefix_find? hp hd'
  have h4 : (labelsOf x.ancestors).find? (fun b => nameOf b == some t.text) = some d := r3
  rw [h4] at h3
  cases h3
  exact hd'

section
variable {F : Nat → Bool} {name : Text} {g : Green} (hs : Solid g)
include hs
local notation "M" => mv F name (Green.toks g)

theorem mv_declares {d : Red} {sp : Space} (h : Declares g d sp) : Declares (relabel F name 0 g) (M d) sp := by
  cases h with
  | field h1 h2 h3 =>
    have := (InTree.root g).child h1
    exact .field (by rw [root_children_mv hs]; exact List.mem_map_of_mem h1)
      (by rw [mv_descendants hs this]; exact List.mem_map_of_mem h2) h3
  | slot h1 h2 h3 => exact .slot (inTree_mv hs h1) h2 (by rw [mv_localSlots hs h1]; exact List.mem_map_of_mem h3)

theorem declares_mv {d' : Red} {sp : Space} (h : Declares (relabel F name 0 g) d' sp) :
    ∃ d, d' = M d ∧ InTree g d ∧ Declares g d sp := by
  cases h with
  | field h1 h2 h3 =>
    rw [root_children_mv hs] at h1
    obtain ⟨s, h4, rfl⟩ := List.mem_map.mp h1
    have hst := (InTree.root g).child h4
    rw [mv_descendants hs hst] at h2
    obtain ⟨d, h5, rfl⟩ := List.mem_map.mp h2
    exact ⟨d, rfl, hst.descendant h5, .field h4 h5 h3⟩
  | slot h1 h2 h3 =>
    obtain ⟨s, h4, rfl⟩ := mv_inTree hs h1
    rw [mv_localSlots hs h4] at h3
    obtain ⟨d, h5, rfl⟩ := List.mem_map.mp h3
    exact ⟨d, rfl, (mem_localSlots h4 h5).1, .slot h4 h2 h5⟩

theorem same_resolves (hm : SameMeaning g (relabel F name 0 g)) {x y : Red} (hx : InTree g x) (hy : InTree g y) :
    Resolves (M x) (M y) ↔ Resolves x y := by
  have hd := mv_descendants (F := F) (name := name) hs (InTree.root g)
  rw [mv_root hs] at hd
  obtain ⟨i, hi⟩ := List.mem_iff_getElem?.mp hx
  obtain ⟨j, hj⟩ := List.mem_iff_getElem?.mp hy
  exact hm.2 i j x y _ _ hi hj (by rw [hd, List.getElem?_map, hi]; rfl) (by rw [hd, List.getElem?_map, hj]; rfl)

/-- What is declared is what was. -/
theorem mv_sameEntity (hn : name ≠ []) (hm : SameMeaning g (relabel F name 0 g)) {x y : Red} (hx : InTree g x) (hy : InTree g y)
    (hxn : (nameOf x).isSome) (hyn : (nameOf y).isSome) : SameEntity (relabel F name 0 g) (M x) (M y) ↔ SameEntity g x y := by
  constructor
  · rintro ⟨d', hd, h1, h2⟩
    obtain ⟨d, rfl, hdt, hd⟩ : ∃ d, d' = M d ∧ InTree g d ∧
        ((∃ sp, Declares g d sp) ∨ (d ∈ (Red.root g).descendants ∧ isLabel d.kind = true)) := by
      rcases hd with ⟨sp, hd⟩ | ⟨hd, hl⟩
      · obtain ⟨d, h3, h4, h5⟩ := declares_mv hs hd
        exact ⟨d, h3, h4, .inl ⟨sp, h5⟩⟩
      · obtain ⟨d, h3, rfl⟩ := mv_inTree hs hd
        exact ⟨d, rfl, h3, .inr ⟨h3, hl⟩⟩
    refine ⟨d, hd, ?_, ?_⟩
    · rcases h1 with h1 | ⟨_, h1⟩
      · exact .inl (mv_named_inj hs hn hdt hx hxn h1.symm).symm
      · exact .inr ⟨hx, (same_resolves hs hm hx hdt).mp h1⟩
    · rcases h2 with h2 | ⟨_, h2⟩
      · exact .inl (mv_named_inj hs hn hdt hy hyn h2.symm).symm
      · exact .inr ⟨hy, (same_resolves hs hm hy hdt).mp h2⟩
  · rintro ⟨d, hd, h1, h2⟩
    have hdt : InTree g d := by
      rcases h1 with rfl | ⟨_, h1⟩
      · exact hx
      · obtain ⟨sp, i, r1, r2, r3⟩ := h1
        exact (declarations_inTree hs hx (denotes_mem r3)).1
    refine ⟨M d, ?_, ?_, ?_⟩
    · rcases hd with ⟨sp, hd⟩ | ⟨hd, hl⟩
      · exact .inl ⟨sp, mv_declares hs hd⟩
      · exact .inr ⟨inTree_mv hs hd, hl⟩
    · rcases h1 with rfl | ⟨_, h1⟩
      · exact .inl rfl
      · exact .inr ⟨inTree_mv hs hx, (same_resolves hs hm hx hdt).mpr h1⟩
    · rcases h2 with rfl | ⟨_, h2⟩
      · exact .inl rfl
      · exact .inr ⟨inTree_mv hs hy, (same_resolves hs hm hy hdt).mpr h2⟩

omit hs in
theorem mem_nest_label {p d : Red} (h : d ∈ nest p) : isLabel d.kind = true := by
  unfold nest at h
  generalize p.ancestors = l at h
  induction l with
  | nil => cases h
  | cons a l ih =>
    rw [List.takeWhile_cons] at h
    split at h
    · rcases List.mem_cons.mp h with rfl | h
      · assumption
      · exact ih h
    · cases h

omit hs in
theorem mv_nest (p : Red) : nest (M p) = (nest p).map M := by
  unfold nest
  rw [mv_ancestors, List.takeWhile_map]
  rfl

omit hs in
theorem mv_outside {x : Red} (h : OutsideConditions x) : OutsideConditions (M x) := by
  intro c' hc a' ha
  rw [mv_ancestors] at hc
  obtain ⟨c, h1, rfl⟩ := List.mem_map.mp hc
  rw [mv_parent] at ha
  obtain ⟨a, h2, rfl⟩ := Option.map_eq_some_iff.mp ha
  exact h c h1 a h2

omit hs in
theorem mv_directly {z d : Red} (h : Directly z d) : Directly (M z) (M d) := by
  obtain ⟨r, h1, h2⟩ := h
  exact ⟨M r, by rw [mv_scopeOf, h1]; rfl, by rw [mv_nest]; exact List.mem_map_of_mem h2⟩

theorem mv_indexOf_isSome {x : Red} (h : InTree g x) : (indexOf (M x)).isSome = (indexOf x).isSome := by
  cases hn : nameOf x with
  | none => rw [mv_indexOf_num hs h hn]
  | some n =>
    have := nameOf_isSome (F := F) (name := name) hs h
    rw [hn] at this
    obtain ⟨n', hn'⟩ := Option.isSome_iff_exists.mp this
    unfold indexOf
    rw [hn, hn']
    rfl

theorem label_nonempty {d : Red} (h : isLabel d.kind = true) : mayBeEmpty d.kind = false := by
  revert h
  cases d.kind <;> simp [isLabel, mayBeEmpty]

theorem branchUnder_mv (hn : name ≠ []) {d y : Red} (hd : InTree g d) (hy : InTree g y) (h : BranchUnder (relabel F name 0 g) (M d) (M y)) :
    BranchUnder g d y := by
  obtain ⟨_, h2, h3, r', h4, h5⟩ := h
  rw [mv_scopeOf] at h4
  obtain ⟨r, h6, rfl⟩ := Option.map_eq_some_iff.mp h4
  rw [mv_nest] at h5
  obtain ⟨d2, h7, h8⟩ := List.mem_map.mp h5
  have hl : isLabel d2.kind = true := mem_nest_label h7
  have hrt := InTree.ancestor hy (List.mem_of_find?_eq_some h6)
  have hd2 := InTree.ancestor hrt ((List.takeWhile_sublist _).subset h7)
  have := mv_inj hs hn hd hd2 (label_nonempty hs hl) h8.symm
  subst this
  exact ⟨hy, (mv_refersTo hs hn hy).mp h2, by rw [← mv_indexOf_isSome hs hy]; exact h3, r, h6, h7⟩

/-- What is edited along is what was. -/
theorem editedWith_mv (hn : name ≠ []) {x y : Red} (hx : InTree g x) (hy : InTree g y) (hxn : (nameOf x).isSome)
    (hyn : (nameOf y).isSome)
    (hal : ∀ r d, RefersTo x .label → scopeOf .label x = some r → d ∈ nest r → nameOf (M d) = nameOf (M x) →
      ∃ i, indexOf x = some i ∧ nearest r i = some d)
    (h : EditedWith (relabel F name 0 g) (M x) (M y)) : EditedWith g x y := by
  generalize hY : M y = Y at h
  cases h with
  | self =>
    have := mv_named_inj hs hn hy hx hxn hY
    subst this
    exact .self
  | @besideBlock s' y' sp h1 h2 h3 h4 =>
    subst hY
    rw [mv_parent] at h2
    obtain ⟨s, h5, rfl⟩ := Option.map_eq_some_iff.mp h2
    obtain ⟨s1, y1, e1, e2, h6⟩ := home_mv hs hn h4
    have := mv_named_inj hs hn (home_inTree h6) hy hyn e2.symm
    subst this
    obtain ⟨q1, q2⟩ := home_scope hs h6 h3
    have := mv_inj hs hn (hx.parent h5).1 q1 q2 e1
    subst this
    exact .besideBlock h1 h5 h3 h6
  | @besideBranch s' y' sp h1 h2 h3 h4 =>
    subst hY
    rw [mv_scopeOf] at h2
    obtain ⟨s, h5, rfl⟩ := Option.map_eq_some_iff.mp h2
    obtain ⟨s1, y1, e1, e2, h6⟩ := home_mv hs hn h4
    have := mv_named_inj hs hn (home_inTree h6) hy hyn e2.symm
    subst this
    obtain ⟨q1, q2⟩ := home_scope hs h6 h3
    have := mv_inj hs hn (InTree.ancestor hx (List.mem_of_find?_eq_some h5)) q1 q2 e1
    subst this
    exact .besideBranch ((mv_refersTo hs hn hx).mp h1) h5 h3 h6
  | operand h1 h2 =>
    subst hY
    exact .operand h1 (branchUnder_mv hs hn hx hy h2)
  | block h1 h2 h3 =>
    subst hY
    rw [mv_scopeOf] at h2
    obtain ⟨r, h5, rfl⟩ := Option.map_eq_some_iff.mp h2
    rw [mv_nest] at h3
    obtain ⟨y1, h6, h7⟩ := List.mem_map.mp h3
    have hrt := InTree.ancestor hx (List.mem_of_find?_eq_some h5)
    have := mv_named_inj hs hn (InTree.ancestor hrt ((List.takeWhile_sublist _).subset h6)) hy hyn h7
    subst this
    exact .block ((mv_refersTo hs hn hx).mp h1) h5 h6
  | alike h1 h2 h3 h4 h5 =>
    subst hY
    rw [mv_scopeOf] at h2
    obtain ⟨r, h6, rfl⟩ := Option.map_eq_some_iff.mp h2
    have hx' : (nameOf (M x)).isSome := by rw [nameOf_isSome hs hx]; exact hxn
    obtain ⟨n, hxn'⟩ := Option.isSome_iff_exists.mp hx'
    unfold indexOf at h3
    rw [hxn'] at h3
    cases h3
    simp only [nearest] at h4
    have h7 := List.mem_of_find?_eq_some h4
    have h8 := List.find?_some h4
    rw [mv_nest] at h7
    obtain ⟨d, h9, rfl⟩ := List.mem_map.mp h7
    have hr' := (mv_refersTo hs hn hx).mp h1
    obtain ⟨i, h10, h11⟩ := hal r d hr' h6 h9 (by rw [hxn']; simpa using h8)
    have hrt := InTree.ancestor hx (List.mem_of_find?_eq_some h6)
    have hdt := InTree.ancestor hrt ((List.takeWhile_sublist _).subset h9)
    exact .alike hr' h6 h10 h11 (branchUnder_mv hs hn hdt hy h5)

end

end Moved

end Verif
