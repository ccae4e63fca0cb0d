import Verif.Lemmas.CallSites
import Verif.Lemmas.Typing
import Verif.Lemmas.Paint
import Verif.Spec.Hints
/-!
Lemmas: the inlay hints.
-/
namespace Verif
open Spec

variable {g : Green}

theorem ref_sym (hs : Solid g) {c : Sym} {sp : Space} (h : c ∈ (symbolTable (Red.root g)).symbols) (hk : c.kind = refSym sp) :
    ∃ x r i, IsRef g x r sp i ∧ c = refSymOf x r sp i := by
  obtain ⟨x, hx⟩ := (mem_symbols_iff hs).mp h
  cases hx with
  | module => cases sp <;> cases hk
  | @field m _ k sp' _ _ _ => cases sp <;> cases sp' <;> cases hk
  | @slot f _ j _ _ _ => exfalso; revert hk; dsimp only; split <;> intro hk <;> cases sp <;> cases hk
  | @ref _ r sp' i h1 h2 h3 h4 =>
    have : sp' = sp := by cases sp <;> cases sp' <;> first | rfl | cases hk
    subst this
    exact ⟨x, r, i, ⟨h1, h2, h3, h4⟩, rfl⟩
  | block => cases sp <;> cases hk

/-- The declarations of an index, when numbers count alike. -/
theorem denotes_code {x r d : Red} {sp : Space} {i : Index} (hsc : scopeOf sp x = some r) (hm : isModuleSpace sp = true)
    (hn : ∀ k, i = .num k → CountsAlike sp x k) : Denotes sp x i d ↔ CodeDef sp r i d := by
  have hlab : sp ≠ .label := by rintro rfl; cases hm
  cases i with
  | name n =>
    rw [codeDef_name hm]
    simp only [Denotes, if_neg hlab, declarations_module hm hsc]
  | num k =>
    rw [codeDef_num hm]
    simp only [Denotes, declarations_module hm hsc]
    have ha := hn k rfl r hsc
    rw [indexSpace_eq, filter_take_getElem? (fun a h => by rw [beq_iff_eq]; exact ha a h)]
    constructor
    · intro h
      refine ⟨h, ha d ?_⟩
      obtain ⟨hlt, rfl⟩ := List.getElem?_eq_some_iff.mp h
      exact List.mem_iff_getElem?.mpr ⟨k, by rw [List.getElem?_take]; simp⟩
    · exact fun h => h.1

/-- The declaration whose type is shown. -/
def shownDef (t : SymbolTable) (sp : Space) (key : Key) : Option Sym :=
  match sp with
  | .local => t.findParamOrLocalDef key
  | _ => (t.findDefs key).bind List.head?

/-- The type that is shown. -/
def shownType (sp : Space) (s : Sym) : Option ValType :=
  match sp with
  | .local => extractType s.green
  | _ => extractGlobalType s.green

def isTyped : Space → Bool
  | .local | .global => true
  | _ => false

theorem slot_kind {f d : Red} (hf : InTree g f) (h : d ∈ localSlots f) :
    InTree g d ∧ (d.kind = .VAL_TYPE ∨ d.kind = .PARAM ∨ d.kind = .LOCAL) := by
  obtain ⟨h1, grp, _, h2, h3⟩ := mem_localSlots hf h
  refine ⟨h1, ?_⟩
  rcases h3 with ⟨rfl, _⟩ | ⟨h3, _⟩
  · rcases h2 with ⟨h2, _⟩ | ⟨h2, _⟩
    · exact .inr (.inl h2)
    · exact .inr (.inr h2)
  · exact .inl h3

/-- The declaration shown is one that the code resolves the reference to. -/
theorem shownDef_code (hs : Solid g) {x r : Red} {sp : Space} {i : Index} (h : IsRef g x r sp i) (ht : isTyped sp = true) {s : Sym}
    (hd : shownDef (symbolTable (Red.root g)) sp x.key = some s) :
    ∃ d, InTree g d ∧ CodeDef sp r i d ∧ s.green = d.green ∧
      (sp = .local → d.kind = .VAL_TYPE ∨ d.kind = .PARAM ∨ d.kind = .LOCAL) := by
  cases sp with
  | «local» =>
    replace hd : (symbolTable (Red.root g)).findParamOrLocalDef x.key = some s := hd
    rw [findLocal_eq hs h] at hd
    obtain ⟨q, hq, rfl⟩ := Option.map_eq_some_iff.mp hd
    have hmem : q.1 ∈ localSlots r := by
      have := List.mem_of_find?_eq_some hq
      exact (List.mem_zipIdx' this).2 ▸ List.getElem_mem _
    obtain ⟨h1, h2⟩ := slot_kind h.scope_mem.2.1 hmem
    exact ⟨q.1, h1, by simp only [CodeDef, hq, Option.map_some], rfl, fun _ => h2⟩
  | global =>
    replace hd : ((symbolTable (Red.root g)).findDefs x.key).bind List.head? = some s := hd
    obtain ⟨ds, h1, h2⟩ := findDefs_module hs h rfl
    rw [h1] at hd
    obtain ⟨k, d, h3, h4, h5, rfl⟩ := (h2 s).mp (List.mem_of_mem_head? hd)
    have hmr := h.module hs rfl
    have hdt : InTree g d := by
      have h6 := List.mem_of_getElem? h3
      unfold fields at h6
      exact InTree.descendant (InTree.child (InTree.root g) hmr) (List.mem_filter.mp h6).1
    exact ⟨d, hdt, ⟨k, h3, h4, h5⟩, rfl, fun h => by cases h⟩
  | _ => cases ht

/-- If the code resolves the reference, a declaration is shown. -/
theorem shownDef_some (hs : Solid g) {x r : Red} {sp : Space} {i : Index} (h : IsRef g x r sp i) (ht : isTyped sp = true) {d : Red}
    (hd : CodeDef sp r i d) : ∃ s, shownDef (symbolTable (Red.root g)) sp x.key = some s := by
  cases sp with
  | «local» =>
    show ∃ s, (symbolTable (Red.root g)).findParamOrLocalDef x.key = some s
    rw [findLocal_eq hs h]
    simp only [CodeDef] at hd
    obtain ⟨q, hq, _⟩ := Option.map_eq_some_iff.mp hd
    exact ⟨_, by rw [hq]; rfl⟩
  | global =>
    show ∃ s, ((symbolTable (Red.root g)).findDefs x.key).bind List.head? = some s
    obtain ⟨ds, h1, h2⟩ := findDefs_module hs h rfl
    obtain ⟨k, h3, h4, h5⟩ : ∃ k, (fields r)[k]? = some d ∧ fieldSpace d.kind = some .global ∧ Matches i k (nameOf d) := hd
    have := (h2 _).mpr ⟨k, d, h3, h4, h5, rfl⟩
    rw [h1]
    cases ds with
    | nil => cases this
    | cons s ss => exact ⟨s, rfl⟩
  | _ => cases ht

/-- What the code resolves a typed reference to is what it denotes. -/
theorem typed_denotes {x r d : Red} {sp : Space} {i : Index} (h : IsRef g x r sp i) (ht : isTyped sp = true)
    (hn : sp = .global → ∀ k, i = .num k → CountsAlike sp x k) (hd : CodeDef sp r i d) : Denotes sp x i d := by
  cases sp with
  | «local» =>
    rw [denotes_local h.scope]
    simp only [CodeDef] at hd
    obtain ⟨q, hq, rfl⟩ := Option.map_eq_some_iff.mp hd
    have hm := List.mem_of_find?_eq_some hq
    have hp := List.find?_some hq
    exact ⟨q.2, List.mem_zipIdx_iff_getElem?.mp hm, (isDefinedBy_iff i q.2 (nameOf q.1)).mp hp⟩
  | global => exact (denotes_code h.scope rfl (hn rfl)).mpr hd
  | _ => cases ht

/-- What a typed reference denotes the code can resolve. -/
theorem denotes_typed {x r d : Red} {sp : Space} {i : Index} (h : IsRef g x r sp i) (ht : isTyped sp = true)
    (hn : sp = .global → ∀ k, i = .num k → CountsAlike sp x k) (hd : Denotes sp x i d) : ∃ d', CodeDef sp r i d' := by
  cases sp with
  | «local» =>
    rw [denotes_local h.scope] at hd
    obtain ⟨j, h1, h2⟩ := hd
    simp only [CodeDef]
    cases hf : (localSlots r).zipIdx.find? fun q => i.toIdx.isDefinedBy ⟨some q.2, nameOf q.1⟩ with
    | some q => exact ⟨q.1, rfl⟩
    | none =>
      exfalso
      have := List.find?_eq_none.mp hf (d, j) (List.mem_zipIdx_iff_getElem?.mpr h1)
      exact this ((isDefinedBy_iff i j (nameOf d)).mpr h2)
  | global => exact ⟨d, (denotes_code h.scope rfl (hn rfl)).mp hd⟩
  | _ => cases ht

theorem shownType_eq (hs : Solid g) (h0 : ValOk g) (hr : (Red.root g).green = g) {d : Red} {sp : Space} {s : Sym} (ht : isTyped sp = true)
    (hd : InTree g d) (hk : sp = .local → d.kind = .VAL_TYPE ∨ d.kind = .PARAM ∨ d.kind = .LOCAL) (hg : s.green = d.green) {ty : ValType} :
    shownType sp s = some ty ↔ HasType sp d ty := by
  unfold HasType
  cases sp with
  | «local» =>
    simp only [shownType, hg, extractType_declared hs hd (hd.valOk h0 hr) (hk rfl)]
    simp
  | global =>
    simp only [shownType, hg, extractGlobal_declared hs hd (hd.valOk h0 hr)]
    simp
  | _ => cases ht

theorem label_iff {t : Text} {ty : ValType} : (t, ty) ∈ valTypes ↔ t = ty.text := by
  constructor
  · intro h
    simp only [valTypes, List.mem_cons, Prod.mk.injEq, List.not_mem_nil, or_false] at h
    rcases h with ⟨rfl, rfl⟩ | ⟨rfl, rfl⟩ | ⟨rfl, rfl⟩ | ⟨rfl, rfl⟩ | ⟨rfl, rfl⟩ | ⟨rfl, rfl⟩ | ⟨rfl, rfl⟩ <;> rfl
  · rintro rfl
    cases ty <;> simp [valTypes, ValType.text]

theorem hintAt_done {src : Text} {off : Nat} {l : Text} {h : Hint} : hintAt src off l = .done (some h) ↔ IsPos src off h.position ∧ h.label = l := by
  unfold hintAt
  cases hp : rowanPosToLsp src off with
  | none =>
    simp only [Ans.ofOption, Ans.bind]
    constructor
    · intro h; cases h
    · rintro ⟨h1, _⟩
      have := lineCol_iff.mpr h1
      unfold rowanPosToLsp at hp
      rw [hp] at this; cases this
  | some p =>
    simp only [Ans.ofOption, Ans.bind]
    unfold rowanPosToLsp at hp
    constructor
    · intro h; cases h; exact ⟨lineCol_iff.mp hp, rfl⟩
    · rintro ⟨h1, h2⟩
      have := lineCol_iff.mpr h1
      rw [hp] at this
      cases h with
      | mk p' l' => simp only at this h2; cases this; cases h2; rfl

theorem hintAt_none {src : Text} {off : Nat} {l : Text} : hintAt src off l ≠ .done none := by
  unfold hintAt
  cases rowanPosToLsp src off <;> simp [Ans.ofOption, Ans.bind]

/-- The hint for a reference, by its space. -/
theorem symbolHint_ref {src : Text} {root : Red} {ab : Nat × Nat} {x r : Red} {sp : Space} {i : Index} (ht : isTyped sp = true) :
    symbolHint src root ab (refSymOf x r sp i) =
      if containsRange ab x.start x.stop then
        match (shownDef (symbolTable root) sp x.key).bind (shownType sp) with
        | some ty => hintAt src x.stop ty.text
        | none => .done none
      else .done none := by
  cases sp <;> first | rfl | cases ht

theorem containsRange_iff {ab : Nat × Nat} {a b : Nat} : containsRange ab a b = true ↔ Inside ab a b := by
  unfold containsRange Inside
  simp

/-- The end of the last part of a node is the end of the node. -/
theorem lastRange_eq (n : Red) : n.lastRange = (lastStart n).map fun a => (a, n.stop) := by
  have key : ∀ (up : List Frame) (cs : List Green) (off : Nat),
      ((childEls up off cs).getLast?.map fun e => match e with
        | .node c => (c.start, c.stop)
        | .tok t => (t.off, t.stop)) =
      ((childEls up off cs).getLast?.map fun e => match e with
        | .node c => c.start
        | .tok t => t.off).map fun a => (a, off + bytes (Green.textL cs)) := by
    intro up cs
    induction cs with
    | nil => intro off; simp [childEls]
    | cons c cs ih =>
      intro off
      rw [childEls_cons, List.getLast?_cons, Green.textL, bytes_append, ← Nat.add_assoc]
      cases cs with
      | nil =>
        simp only [childEls, List.getLast?_nil, Option.getD_none, Option.map_some, Green.textL, bytes_nil, Nat.add_zero]
        cases c with
        | tok k t => simp [elAt, Tok.stop, text_tok]
        | node k cs => simp [elAt, Red.stop, Red.start, Frame.stop, text_node]
      | cons c' cs' =>
        have := ih (off + bytes c.text)
        rw [childEls_cons] at this ⊢
        rw [List.getLast?_cons] at this ⊢
        exact this
  unfold Red.lastRange lastStart
  exact key _ _ _

theorem lastRange_le {n : Red} {a b : Nat} (h : n.lastRange = some (a, b)) : a ≤ b := by
  unfold Red.lastRange at h
  obtain ⟨e, _, h⟩ := Option.map_eq_some_iff.mp h
  cases e with
  | node c => cases h; exact Nat.le_add_right _ _
  | tok t => cases h; exact Nat.le_add_right _ _

theorem symbolHint_func (hs : Solid g) {src : Text} {ab : Nat × Nat} {m d : Red} {k : Nat} (hd : IsFunc g m k d) :
    symbolHint src (Red.root g) ab (fieldSymOf d m .func k) =
      match (lastStart d).filter (fun a => containsRange ab a d.stop), nameOf d with
      | some _, some name => hintAt src d.stop (t!"(func " ++ name ++ t!")")
      | _, _ => .done none := by
  have hS := IsFunc.sym hd
  unfold symbolHint
  rw [show (fieldSymOf d m .func k).kind = .func from rfl]
  simp only
  rw [show (fieldSymOf d m .func k).key = d.key from rfl, (hS.inTree hs).1.toNode hs (hS.nonempty hs)]
  simp only [Ans.ofOption, Ans.bind]
  rw [lastRange_eq]
  rw [show (fieldSymOf d m .func k).idx.name = nameOf d from rfl]
  cases lastStart d with
  | none => rfl
  | some a =>
    cases h : containsRange ab a d.stop with
    | false => simp [Option.filter, h]
    | true => cases nameOf d <;> simp [Option.filter, h]

/-- Hints are right. -/
theorem symbolHint_sound (hs : Solid g) (h0 : ValOk g) (hr : (Red.root g).green = g) {src : Text} {ab : Nat × Nat} {s : Sym}
    (hsm : s ∈ (symbolTable (Red.root g)).symbols) {h : Hint} (hh : symbolHint src (Red.root g) ab s = .done (some h)) :
    (∃ x r i sp d ty, isTyped sp = true ∧ IsRef g x r sp i ∧ CodeDef sp r i d ∧ HasType sp d ty ∧ TypeHint src ab x ty h) ∨
      ∃ m k d nm, IsFunc g m k d ∧ FuncHint src ab d nm h := by
  have ref : ∀ sp, isTyped sp = true → s.kind = refSym sp →
      ∃ x r i d ty, IsRef g x r sp i ∧ CodeDef sp r i d ∧ HasType sp d ty ∧ TypeHint src ab x ty h := by
    intro sp ht hk
    obtain ⟨x, r, i, hx, rfl⟩ := ref_sym hs hsm hk
    rw [symbolHint_ref ht] at hh
    split at hh
    · rename_i hin
      split at hh
      · rename_i ty hty
        obtain ⟨s', h1, h2⟩ := Option.bind_eq_some_iff.mp hty
        obtain ⟨d, h3, h4, h5, h6⟩ := shownDef_code hs hx ht h1
        obtain ⟨h7, h8⟩ := hintAt_done.mp hh
        exact ⟨x, r, i, d, ty, hx, h4, (shownType_eq hs h0 hr ht h3 h6 h5).mp h2, containsRange_iff.mp hin, h7, label_iff.mpr h8⟩
      · cases hh
    · cases hh
  cases hk : s.kind with
  | localRef =>
    obtain ⟨x, r, i, d, ty, h⟩ := ref .local rfl hk
    exact .inl ⟨x, r, i, .local, d, ty, rfl, h⟩
  | globalRef =>
    obtain ⟨x, r, i, d, ty, h⟩ := ref .global rfl hk
    exact .inl ⟨x, r, i, .global, d, ty, rfl, h⟩
  | func =>
    obtain ⟨x, hx⟩ := (mem_symbols_iff hs).mp hsm
    obtain ⟨_, _, _, m, k, h1, h2, h3, rfl⟩ := func_sym hs hx hk
    have hf : IsFunc g m k x := ⟨h1, h2, h3⟩
    rw [symbolHint_func hs hf] at hh
    split at hh
    · rename_i a nm ha hn
      obtain ⟨h4, h5⟩ := Option.filter_eq_some_iff.mp ha
      obtain ⟨h7, h8⟩ := hintAt_done.mp hh
      exact .inr ⟨m, k, x, nm, hf, ⟨a, h4, containsRange_iff.mp h5⟩, hn, h7, h8⟩
    · cases hh
  | _ => unfold symbolHint at hh; rw [hk] at hh; cases hh

theorem inlayHints_done {src : Text} {root : Red} {u w v : Text} (hsrc : src = u ++ w ++ v) {o : Option (List Hint)}
    (h : inlayHints src root ⟨posAfter u, posAfter (u ++ w)⟩ = .done o) :
    ∃ hs, o = some hs ∧ Ans.filterMapL (symbolHint src root (bytes u, bytes (u ++ w))) (symbolTable root).symbols = .done hs := by
  unfold inlayHints at h
  rw [show lspRangeToRowan src ⟨posAfter u, posAfter (u ++ w)⟩ = .done (some (bytes u, bytes (u ++ w))) by rw [hsrc]; exact lspRange_ok u w v,
    bindO_of_some] at h
  obtain ⟨hs, h1, h2⟩ := bind_done h
  cases h2
  exact ⟨hs, rfl, h1⟩

theorem filterMapL_all {f : α → Ans (Option β)} {l : List α} {bs : List β} (h : Ans.filterMapL f l = .done bs) {a : α} (ha : a ∈ l) :
    ∃ o, f a = .done o ∧ ∀ b, o = some b → b ∈ bs := by
  obtain ⟨os, h1, h2⟩ := filterMapL_done h
  have : f a ∈ os.map Ans.done := by rw [← h1]; exact List.mem_map_of_mem ha
  obtain ⟨o, _, h4⟩ := List.mem_map.mp this
  refine ⟨o, h4.symm, ?_⟩
  rintro b rfl
  exact (filterMapL_mem h b).mpr ⟨a, ha, h4.symm⟩

/-- Typed references have hints. -/
theorem hint_ref (hs : Solid g) (h0 : ValOk g) (hr : (Red.root g).green = g) {src : Text} {ab : Nat × Nat} {hints : List Hint}
    (hh : Ans.filterMapL (symbolHint src (Red.root g) ab) (symbolTable (Red.root g)).symbols = .done hints) {x r d : Red} {sp : Space}
    {i : Index} (ht : isTyped sp = true) (hx : IsRef g x r sp i) (hd : CodeDef sp r i d) (hu : ∀ d', CodeDef sp r i d' → d' = d)
    {ty : ValType} (hty : HasType sp d ty) (hin : Inside ab x.start x.stop) : ∃ h ∈ hints, TypeHint src ab x ty h := by
  obtain ⟨o, h1, h2⟩ := filterMapL_all hh (hx.mem hs)
  rw [symbolHint_ref ht, if_pos (containsRange_iff.mpr hin)] at h1
  obtain ⟨s, h3⟩ := shownDef_some hs hx ht hd
  obtain ⟨d', h4, h5, h6, h7⟩ := shownDef_code hs hx ht h3
  have := hu d' h5; subst this
  rw [h3, Option.bind_some, (shownType_eq hs h0 hr ht h4 h7 h6).mpr hty] at h1
  simp only at h1
  cases o with
  | none => exact absurd h1 hintAt_none
  | some h =>
    obtain ⟨h8, h9⟩ := hintAt_done.mp h1
    exact ⟨h, h2 h rfl, hin, h8, label_iff.mpr h9⟩

/-- Named functions have hints. -/
theorem hint_func (hs : Solid g) {src : Text} {ab : Nat × Nat} {hints : List Hint}
    (hh : Ans.filterMapL (symbolHint src (Red.root g) ab) (symbolTable (Red.root g)).symbols = .done hints) {m d : Red} {k : Nat}
    (hd : IsFunc g m k d) {nm : Text} (hn : nameOf d = some nm) {a : Nat} (ha : lastStart d = some a) (hin : Inside ab a d.stop) :
    ∃ h ∈ hints, FuncHint src ab d nm h := by
  obtain ⟨o, h1, h2⟩ := filterMapL_all hh (IsFunc.mem hs hd)
  rw [symbolHint_func hs hd, hn,
    Option.filter_eq_some_iff (p := fun a => containsRange ab a d.stop) |>.mpr ⟨ha, containsRange_iff.mpr hin⟩] at h1
  simp only at h1
  cases o with
  | none => exact absurd h1 hintAt_none
  | some h =>
    obtain ⟨h8, h9⟩ := hintAt_done.mp h1
    exact ⟨h, h2 h rfl, ⟨a, ha, hin⟩, hn, h8, h9⟩

/-! ### No panics -/

theorem hintAt_ok (hs : Solid g) {src dr : Text} (ht : g.text ++ dr = src) {n : Red} (hn : InTree g n) (l : Text) :
    (hintAt src n.stop l).Ok := by
  obtain ⟨r, hr⟩ := node_range_ok hs ht hn
  have := (rowanRangeToLsp_iff.mp hr).2
  exact ⟨some ⟨r.stop, l⟩, hintAt_done.mpr ⟨this, rfl⟩⟩

theorem symbolHint_ok (hs : Solid g) {src dr : Text} (ht : g.text ++ dr = src) {ab : Nat × Nat} {s : Sym}
    (hsm : s ∈ (symbolTable (Red.root g)).symbols) : (symbolHint src (Red.root g) ab s).Ok := by
  have ref : ∀ sp, isTyped sp = true → s.kind = refSym sp → (symbolHint src (Red.root g) ab s).Ok := by
    intro sp hty hk
    obtain ⟨x, r, i, hx, rfl⟩ := ref_sym hs hsm hk
    rw [symbolHint_ref hty]
    split
    · split
      · exact hintAt_ok hs ht hx.tree _
      · exact ok_done _
    · exact ok_done _
  cases hk : s.kind with
  | localRef => exact ref .local rfl hk
  | globalRef => exact ref .global rfl hk
  | func =>
    obtain ⟨x, hx⟩ := (mem_symbols_iff hs).mp hsm
    obtain ⟨hxt, _, _, m, k, h1, h2, h3, rfl⟩ := func_sym hs hx hk
    rw [symbolHint_func hs ⟨h1, h2, h3⟩]
    split
    · exact hintAt_ok hs ht hxt _
    · exact ok_done _
  | _ => unfold symbolHint; rw [hk]; exact ok_done _

theorem inlayHints_ok (hs : Solid g) {src dr : Text} (ht : g.text ++ dr = src) {r : Range}
    (h : (lspRangeToRowan src r).Ok) : (inlayHints src (Red.root g) r).Ok := by
  unfold inlayHints
  refine Ans.Ok.bindO h fun ab _ => ?_
  exact Ans.Ok.bind (filterMapL_ok fun s hsm => symbolHint_ok hs ht hsm) fun _ _ => ok_done _

end Verif
