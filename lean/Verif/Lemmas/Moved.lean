import Verif.Lemmas.Relabel
import Verif.Lemmas.RenameLabel
import Verif.Lemmas.Denote
/-!
The nodes of a tree with other names, and the nodes of the tree they come from.
-/
namespace Verif.Moved
open Spec

/-- The bytes of the tokens that begin before an offset, with the new names. -/
def shift (F : Nat → Bool) (name : Text) : Nat → List (Kind × Text) → Nat → Nat
  | _, [], _ => 0
  | o, (k, t) :: l, target =>
    if o < target then bytes (if k == .IDENT && F o then name else t) + shift F name (o + bytes t) l target else 0

/-- The text of tokens. -/
def txt (l : List (Kind × Text)) : Text := (l.map (·.2)).flatten

theorem shift_split {F : Nat → Bool} {name : Text} : ∀ (a b : List (Kind × Text)) (o : Nat), (∀ x ∈ a, x.2 ≠ []) →
    shift F name o (a ++ b) (o + bytes (txt a)) = bytes (txt (retok F name o a))
  | [], b, o, _ => by
    cases b with
    | nil => simp [shift, txt, retok, bytes_nil]
    | cons x b => simp [shift, txt, retok, bytes_nil]
  | (k, t) :: a, b, o, h => by
    have h1 := bytes_pos (h (k, t) (.head _))
    have ih := shift_split (F := F) (name := name) a b (o + bytes t) fun x hx => h x (.tail _ hx)
    simp only [txt, List.map_cons, List.flatten_cons, bytes_append, List.cons_append, shift, retok] at *
    rw [if_pos (by omega), ← ih, Nat.add_assoc]

section
variable (F : Nat → Bool) (name : Text) (W : List (Kind × Text))

/-- Where an offset is in the new text. -/
def phi (off : Nat) : Nat := shift F name 0 W off

/-- A frame of the new tree. -/
def mvF (f : Frame) : Frame := ⟨f.kind, relabelL F name f.off f.cs, phi F name W f.off⟩
/-- A node of the new tree. -/
def mv (r : Red) : Red := ⟨mvF F name W r.self, r.up.map (mvF F name W)⟩
/-- A token of the new tree. -/
def mvT (t : Tok) : Tok :=
  ⟨t.kind, if t.kind == .IDENT && F t.off then name else t.text, phi F name W t.off, t.up.map (mvF F name W)⟩
/-- An element of the new tree. -/
def mvE : El → El
  | .node r => .node (mv F name W r)
  | .tok t => .tok (mvT F name W t)

/-- The elements are at this offset of the text. -/
def Placed (off : Nat) (cs : List Green) : Prop :=
  ∃ a c, W = a ++ Green.toksL cs ++ c ∧ off = bytes (txt a)

end

variable {F : Nat → Bool} {name : Text} {W : List (Kind × Text)}

theorem txt_append (a b : List (Kind × Text)) : txt (a ++ b) = txt a ++ txt b := by simp [txt]

theorem txt_toks (g : Green) : txt g.toks = g.text := toks_texts g
theorem txt_toksL (cs : List Green) : txt (Green.toksL cs) = Green.textL cs := toksL_texts cs

theorem Placed.head {off : Nat} {g : Green} {gs : List Green} (h : Placed W off (g :: gs)) : Placed W off [g] := by
  obtain ⟨a, c, h1, h2⟩ := h
  exact ⟨a, Green.toksL gs ++ c, by rw [h1]; simp [Green.toksL], h2⟩

theorem Placed.tail {off : Nat} {g : Green} {gs : List Green} (h : Placed W off (g :: gs)) :
    Placed W (off + bytes g.text) gs := by
  obtain ⟨a, c, h1, h2⟩ := h
  refine ⟨a ++ g.toks, c, by rw [h1]; simp [Green.toksL], ?_⟩
  rw [txt_append, bytes_append, txt_toks, h2]

theorem Placed.inner {off : Nat} {k : Kind} {cs : List Green} (h : Placed W off [.node k cs]) : Placed W off cs := by
  obtain ⟨a, c, h1, h2⟩ := h
  exact ⟨a, c, by rw [h1]; simp [Green.toksL, Green.toks], h2⟩

theorem Placed.phi (hW : ∀ x ∈ W, x.2 ≠ []) {off : Nat} {g : Green} (h : Placed W off [g]) :
    phi F name W (off + bytes g.text) = phi F name W off + bytes (relabel F name off g).text := by
  obtain ⟨a, c, h1, h2⟩ := h
  simp only [Green.toksL, List.append_nil] at h1
  subst h2
  have e1 := shift_split (F := F) (name := name) a (g.toks ++ c) 0 fun x hx => hW x (by rw [h1]; simp [hx])
  have e2 := shift_split (F := F) (name := name) (a ++ g.toks) c 0 fun x hx => hW x (by rw [h1]; exact List.mem_append_left _ hx)
  rw [Nat.zero_add, ← List.append_assoc, ← h1] at e1
  rw [Nat.zero_add, ← h1, txt_append, bytes_append, txt_toks, retok_append, txt_append, bytes_append, ← relabel_toks, txt_toks,
    Nat.zero_add] at e2
  unfold Moved.phi
  rw [e1, e2]; rfl

theorem relabelL_text (F : Nat → Bool) (name : Text) (off : Nat) (k : Kind) (cs : List Green) :
    (relabel F name off (.node k cs)).text = Green.textL (relabelL F name off cs) := by rw [relabel, Green.text]

theorem childEls_mv (hW : ∀ x ∈ W, x.2 ≠ []) (up : List Frame) : ∀ (cs : List Green) (off : Nat), Placed W off cs →
    childEls (up.map (mvF F name W)) (phi F name W off) (relabelL F name off cs) = (childEls up off cs).map (mvE F name W)
  | [], _, _ => by simp [relabelL, childEls]
  | g :: cs, off, h => by
    have ih := childEls_mv hW up cs _ h.tail
    rw [h.head.phi hW] at ih
    rw [relabelL, childEls_cons, childEls_cons, List.map_cons, ih]
    congr 1
    cases g with
    | tok k t => rfl
    | node k cs => rfl

mutual
theorem descG_mv (hW : ∀ x ∈ W, x.2 ≠ []) : ∀ (g : Green) (up : List Frame) (off : Nat), Placed W off [g] →
    descG (up.map (mvF F name W)) (phi F name W off) (relabel F name off g) = (descG up off g).map (mv F name W)
  | .tok k t, up, off, _ => by simp [relabel, descG]
  | .node k cs, up, off, h => by
    have ih := descL_mv hW cs (⟨k, cs, off⟩ :: up) off h.inner
    simp only [List.map_cons] at ih
    rw [relabel, descG, descG, List.map_cons, ← ih]
    rfl
theorem descL_mv (hW : ∀ x ∈ W, x.2 ≠ []) : ∀ (cs : List Green) (up : List Frame) (off : Nat), Placed W off cs →
    descL (up.map (mvF F name W)) (phi F name W off) (relabelL F name off cs) = (descL up off cs).map (mv F name W)
  | [], _, _, _ => by simp [relabelL, descL]
  | g :: cs, up, off, h => by
    have h1 := descG_mv hW g up off h.head
    have h2 := descL_mv hW cs up _ h.tail
    rw [h.head.phi hW] at h2
    rw [relabelL, descL, descL, List.map_append, h1, h2]
end

mutual
theorem descG_placed : ∀ (g : Green) (up : List Frame) (off : Nat), Placed W off [g] → ∀ r ∈ descG up off g,
    Placed W r.self.off r.self.cs
  | .tok k t, up, off, _, r, hr => by rw [descG] at hr; cases hr
  | .node k cs, up, off, h, r, hr => by
    rw [descG] at hr
    rcases List.mem_cons.mp hr with rfl | hr
    · exact h.inner
    · exact descL_placed cs _ off h.inner r hr
theorem descL_placed : ∀ (cs : List Green) (up : List Frame) (off : Nat), Placed W off cs → ∀ r ∈ descL up off cs,
    Placed W r.self.off r.self.cs
  | [], up, off, _, r, hr => by rw [descL] at hr; cases hr
  | g :: cs, up, off, h, r, hr => by
    rw [descL] at hr
    rcases List.mem_append.mp hr with hr | hr
    · exact descG_placed g up off h.head r hr
    · exact descL_placed cs up _ h.tail r hr
end

/-! ### One tree -/

section
variable {g : Green} (hs : Solid g)
include hs

/-- The new tree. -/
local notation "M" => mv F name (Green.toks g)

theorem inTree_placed {r : Red} (h : InTree g r) : Placed g.toks r.self.off r.self.cs := by
  obtain ⟨cs, rfl⟩ := hs.root
  have : Placed (Green.toks (.node .ROOT cs)) 0 [.node .ROOT cs] := ⟨[], [], by simp [Green.toksL], by simp [txt, bytes_nil]⟩
  refine descG_placed _ [] 0 this r ?_
  rw [descG]; exact h

theorem phi_zero : phi F name (Green.toks g) 0 = 0 := by
  unfold phi
  cases Green.toks g with
  | nil => rfl
  | cons x l => simp [shift]

theorem mv_root : M (Red.root g) = Red.root (relabel F name 0 g) := by
  obtain ⟨cs, rfl⟩ := id hs.root
  unfold mv mvF Red.root
  simp only [Green.kind, Green.children, relabel, List.map_nil, phi_zero hs]

theorem mv_descendants {r : Red} (h : InTree g r) : (M r).descendants = r.descendants.map M := by
  have := descL_mv (F := F) (name := name) hs.tokens r.self.cs (r.self :: r.up) r.self.off (inTree_placed hs h)
  unfold Red.descendants
  rw [List.map_cons, ← this]
  rfl

theorem mv_els {r : Red} (h : InTree g r) : (M r).els = r.els.map (mvE F name (Green.toks g)) := by
  have := childEls_mv (F := F) (name := name) hs.tokens (r.self :: r.up) r.self.cs r.self.off (inTree_placed hs h)
  unfold Red.els
  rw [← this]
  rfl

theorem mv_children {r : Red} (h : InTree g r) : (M r).children = r.children.map M := by
  unfold Red.children
  rw [mv_els hs h, List.filterMap_map, List.map_filterMap]
  congr 1
  funext e
  cases e <;> rfl

theorem mv_childToks {r : Red} (h : InTree g r) : (M r).childToks = r.childToks.map (mvT F name (Green.toks g)) := by
  unfold Red.childToks
  rw [mv_els hs h, List.filterMap_map, List.map_filterMap]
  congr 1
  funext e
  cases e <;> rfl

theorem mv_token {r : Red} (h : InTree g r) (k : Kind) : (M r).token k = (r.token k).map (mvT F name (Green.toks g)) := by
  unfold Red.token
  rw [mv_childToks hs h, List.find?_map]
  rfl

end

@[simp] theorem mv_kind (r : Red) : (mv F name W r).kind = r.kind := rfl

theorem mv_parent (r : Red) : (mv F name W r).parent = r.parent.map (mv F name W) := by
  unfold Red.parent mv
  cases r.up <;> rfl

theorem mv_redsOf : ∀ l : List Frame, redsOf (l.map (mvF F name W)) = (redsOf l).map (mv F name W)
  | [] => rfl
  | f :: l => by rw [List.map_cons, redsOf, redsOf, List.map_cons, mv_redsOf l]; rfl

theorem mv_ancestors (r : Red) : (mv F name W r).ancestors = r.ancestors.map (mv F name W) := by
  unfold Red.ancestors
  rw [← mv_redsOf]
  rfl

theorem mv_scopeOf (sp : Space) (r : Red) : scopeOf sp (mv F name W r) = (scopeOf sp r).map (mv F name W) := by
  unfold scopeOf
  rw [mv_ancestors, List.find?_map]
  rfl

/-! ### Different nodes stay different -/

/-- An offset between two tokens. -/
def Bound (W : List (Kind × Text)) (off : Nat) : Prop := ∃ a c, W = a ++ c ∧ off = bytes (txt a)

theorem Placed.bound {off : Nat} {cs : List Green} (h : Placed W off cs) : Bound W off := by
  obtain ⟨a, c, h1, h2⟩ := h
  exact ⟨a, _, by rw [h1, List.append_assoc], h2⟩

theorem Placed.bound_end {off : Nat} {cs : List Green} (h : Placed W off cs) : Bound W (off + bytes (Green.textL cs)) := by
  obtain ⟨a, c, h1, h2⟩ := h
  exact ⟨a ++ Green.toksL cs, c, h1, by rw [txt_append, bytes_append, txt_toksL, h2]⟩

theorem Placed.phi_end (hW : ∀ x ∈ W, x.2 ≠ []) {off : Nat} {cs : List Green} (h : Placed W off cs) :
    Moved.phi F name W (off + bytes (Green.textL cs)) = Moved.phi F name W off + bytes (Green.textL (relabelL F name off cs)) := by
  have h' : Placed W off [.node .ROOT cs] := by
    obtain ⟨a, c, h1, h2⟩ := h
    exact ⟨a, c, by rw [h1]; simp [Green.toksL, Green.toks], h2⟩
  have := h'.phi (F := F) (name := name) hW
  rwa [Green.text, relabelL_text] at this

theorem retok_pos (hn : name ≠ []) : ∀ (l : List (Kind × Text)) (o : Nat), (∀ x ∈ l, x.2 ≠ []) → l ≠ [] → 0 < bytes (txt (retok F name o l))
  | [], _, _, h => absurd rfl h
  | (k, t) :: l, o, h, _ => by
    rw [retok]
    simp only [txt, List.map_cons, List.flatten_cons, bytes_append]
    have : 0 < bytes (if k == .IDENT && F o then name else t) := by
      apply bytes_pos
      split
      · exact hn
      · exact h _ (.head _)
    omega

theorem Bound.lt (hW : ∀ x ∈ W, x.2 ≠ []) (hn : name ≠ []) {a b : Nat} (ha : Bound W a) (hb : Bound W b) (h : a < b) :
    phi F name W a < phi F name W b := by
  obtain ⟨a1, c1, h1, rfl⟩ := ha
  obtain ⟨a2, c2, h2, rfl⟩ := hb
  have hpre : ∃ m, a2 = a1 ++ m := by
    rcases List.append_eq_append_iff.mp (h1.symm.trans h2) with ⟨m, e1, _⟩ | ⟨m, e1, _⟩
    · exact ⟨m, e1⟩
    · rw [e1, txt_append, bytes_append] at h; omega
  obtain ⟨m, rfl⟩ := hpre
  have hm : m ≠ [] := by rintro rfl; simp at h
  have e1 := shift_split (F := F) (name := name) a1 c1 0 fun x hx => hW x (by rw [h1]; exact List.mem_append_left _ hx)
  have e2 := shift_split (F := F) (name := name) (a1 ++ m) c2 0 fun x hx => hW x (by rw [h2]; exact List.mem_append_left _ hx)
  rw [Nat.zero_add, ← h1] at e1
  rw [Nat.zero_add, ← h2, retok_append, txt_append (retok F name 0 a1), bytes_append] at e2
  unfold phi
  rw [e1, e2]
  have := retok_pos (F := F) hn m (0 + bytes ((a1.map (·.2)).flatten)) (fun x hx => hW x (by rw [h2]; simp [hx])) hm
  omega

theorem Bound.inj (hW : ∀ x ∈ W, x.2 ≠ []) (hn : name ≠ []) {a b : Nat} (ha : Bound W a) (hb : Bound W b)
    (h : phi F name W a = phi F name W b) : a = b := by
  rcases Nat.lt_trichotomy a b with h' | h' | h'
  · have := ha.lt (F := F) hW hn hb h'; omega
  · exact h'
  · have := hb.lt (F := F) hW hn ha h'; omega

theorem mv_inj {g : Green} (hs : Solid g) (hn : name ≠ []) {m n : Red} (hm : InTree g m) (hn' : InTree g n)
    (he : mayBeEmpty n.kind = false) (h : mv F name g.toks m = mv F name g.toks n) : m = n := by
  refine InTree.key_inj hs hm hn' ?_ he
  have h1 : (mv F name g.toks m).kind = (mv F name g.toks n).kind := congrArg Red.kind h
  rw [mv_kind, mv_kind] at h1
  have p1 := inTree_placed hs hm
  have p2 := inTree_placed hs hn'
  have h2 : phi F name g.toks m.self.off = phi F name g.toks n.self.off := congrArg Red.start h
  have h3 : (mv F name g.toks m).stop = (mv F name g.toks n).stop := congrArg Red.stop h
  have e2 := p1.bound.inj hs.tokens hn p2.bound h2
  have h4 : phi F name g.toks (m.self.off + bytes (Green.textL m.self.cs)) = phi F name g.toks (n.self.off + bytes (Green.textL n.self.cs)) := by
    rw [p1.phi_end hs.tokens, p2.phi_end hs.tokens]; exact h3
  have e3 := p1.bound_end.inj hs.tokens hn p2.bound_end h4
  unfold Red.key Red.start Red.stop Frame.stop
  rw [h1, e3, e2]

/-! ### Names -/

/-- The name of the node is edited. -/
def Edited (F : Nat → Bool) (r : Red) : Prop := ∃ t, r.token .IDENT = some t ∧ F t.off = true

section
variable {g : Green} (hs : Solid g)
include hs
local notation "M" => mv F name (Green.toks g)

theorem nameOf_edited {r : Red} (h : InTree g r) (he : Edited F r) : nameOf (M r) = some name := by
  obtain ⟨t, h1, h2⟩ := he
  unfold nameOf
  rw [mv_token hs h, h1]
  have : t.kind = .IDENT := by have := List.find?_some h1; simpa using this
  simp [mvT, this, h2]

theorem nameOf_other {r : Red} (h : InTree g r) (he : ¬ Edited F r) : nameOf (M r) = nameOf r := by
  unfold nameOf
  rw [mv_token hs h]
  cases h1 : r.token .IDENT with
  | none => rfl
  | some t =>
    have : F t.off = false := by
      cases hF : F t.off with
      | false => rfl
      | true => exact absurd ⟨t, h1, hF⟩ he
    simp [mvT, this]

theorem nameOf_isSome {r : Red} (h : InTree g r) : (nameOf (M r)).isSome = (nameOf r).isSome := by
  unfold nameOf
  rw [mv_token hs h]
  cases r.token .IDENT <;> rfl

theorem mv_filter {p : Kind → Bool} (l : List Red) : (l.map M).filter (fun n => p n.kind) = (l.filter fun n => p n.kind).map M := by
  rw [List.filter_map]; rfl

theorem mv_indexSpace {m : Red} (h : InTree g m) (sp : Space) : indexSpace sp (M m) = (indexSpace sp m).map M := by
  unfold indexSpace
  rw [mv_descendants hs h, List.filter_map]
  rfl

theorem mv_slots {r : Red} (h : InTree g r) : slots (M r) = (slots r).map M := by
  unfold slots
  rw [nameOf_isSome hs h, mv_children hs h, List.filter_map]
  split <;> rfl

theorem mv_slotsL (l : List Red) (h : ∀ r ∈ l, InTree g r) : (l.map M).flatMap slots = (l.flatMap slots).map M := by
  induction l with
  | nil => rfl
  | cons a l ih =>
    rw [List.map_cons, List.flatMap_cons, List.flatMap_cons, List.map_append, mv_slots hs (h a (.head _)),
      ih fun r hr => h r (.tail _ hr)]

theorem mv_localSlots {f : Red} (h : InTree g f) : localSlots (M f) = (localSlots f).map M := by
  unfold localSlots
  simp only [mv_children hs h, List.filter_map, List.map_append]
  have hc : ∀ r ∈ f.children, InTree g r := fun r hr => h.child hr
  have e : ∀ k : Kind, ((fun c : Red => c.kind == k) ∘ M) = fun c => c.kind == k := fun k => rfl
  simp only [e]
  congr 1
  · have : ∀ l : List Red, (∀ r ∈ l, InTree g r) → (l.map M).flatMap (fun tu => tu.children.filter fun c => c.kind == .PARAM) =
        (l.flatMap fun tu => tu.children.filter fun c => c.kind == .PARAM).map M := by
      intro l hl
      induction l with
      | nil => rfl
      | cons a l ih =>
        rw [List.map_cons, List.flatMap_cons, List.flatMap_cons, List.map_append, ih fun r hr => hl r (.tail _ hr),
          mv_children hs (hl a (.head _)), List.filter_map]
        rfl
    rw [← List.map_take, this _ fun r hr => hc r (List.mem_filter.mp (List.mem_of_mem_take hr)).1]
    refine mv_slotsL hs _ fun r hr => ?_
    obtain ⟨tu, h1, h2⟩ := List.mem_flatMap.mp hr
    exact (hc tu (List.mem_filter.mp (List.mem_of_mem_take h1)).1).child (List.mem_filter.mp h2).1
  · exact mv_slotsL hs _ fun r hr => hc r (List.mem_filter.mp hr).1

theorem mv_labelsOf : ∀ l : List Red, labelsOf (l.map M) = (labelsOf l).map M
  | [] => rfl
  | [_] => rfl
  | c :: a :: up => by
    have ih := mv_labelsOf (a :: up)
    simp only [List.map_cons] at ih ⊢
    rw [labelsOf, labelsOf, ih]
    have : inCondition (M c) (M a) = inCondition c a := rfl
    rw [this, mv_kind]
    split <;> rfl

theorem mv_declarations {x : Red} (h : InTree g x) (sp : Space) : declarations sp (M x) = (declarations sp x).map M := by
  have hsc : ∀ sp r, scopeOf sp x = some r → InTree g r := fun sp r hr => h.ancestor (List.mem_of_find?_eq_some hr)
  unfold declarations
  cases sp <;> simp only
  case label => rw [mv_ancestors, mv_labelsOf hs]
  case «local» =>
    rw [mv_scopeOf]
    cases h1 : scopeOf .local x with
    | none => rfl
    | some r => exact mv_localSlots hs (hsc _ r h1)
  all_goals
    rw [mv_scopeOf]
    cases h1 : scopeOf _ x with
    | none => rfl
    | some r => exact mv_indexSpace hs (hsc _ r h1) _

theorem mv_refersTo (hn : name ≠ []) {x : Red} (h : InTree g x) {sp : Space} : RefersTo (M x) sp ↔ RefersTo x sp := by
  have hpar : ∀ {q : Red}, (M x).parent = some q → ∃ p, x.parent = some p ∧ q = M p := by
    intro q hq
    rw [mv_parent] at hq
    obtain ⟨p, h1, h2⟩ := Option.map_eq_some_iff.mp hq
    exact ⟨p, h1, h2.symm⟩
  have hidx : ∀ {p : Red}, x.parent = some p → ((M p).children.find? (fun c => c.kind == .INDEX) = some (M x) ↔
      p.children.find? (fun c => c.kind == .INDEX) = some x) := by
    intro p hp
    have hpt := (h.parent hp).1
    rw [mv_children hs hpt, List.find?_map]
    have e : ((fun c : Red => c.kind == .INDEX) ∘ M) = fun c => c.kind == .INDEX := rfl
    rw [e]
    constructor
    · intro h1
      obtain ⟨c, h2, h3⟩ := Option.map_eq_some_iff.mp h1
      have hk : c.kind = .INDEX := by have := List.find?_some h2; simpa using this
      have := mv_inj (F := F) hs hn h (hpt.child (List.mem_of_find?_eq_some h2)) (by rw [hk]; rfl) h3.symm
      rw [h2, this]
    · intro h1
      rw [h1]; rfl
  have hhead : ∀ {p : Red}, x.parent = some p → p.kind = .PLAIN_INSTR → ((M p).children.head? = some (M x) ↔
      p.children.head? = some x) := by
    intro p hp hk
    have hpt := (h.parent hp).1
    rw [mv_children hs hpt, List.head?_map]
    constructor
    · intro h1
      obtain ⟨c, h2, h3⟩ := Option.map_eq_some_iff.mp h1
      have hc : c ∈ p.children := List.mem_of_head? h2
      have := mv_inj (F := F) hs hn h (hpt.child hc) (by rw [operand_kind hs hpt hk hc]; rfl) h3.symm
      rw [h2, this]
    · intro h1
      rw [h1]; rfl
  have htok : ∀ {p : Red}, InTree g p → ∀ {t : Tok}, (M p).token .INSTR_NAME = some t → ∃ t', p.token .INSTR_NAME = some t' ∧ t'.text = t.text := by
    intro p hp t ht
    rw [mv_token hs hp] at ht
    obtain ⟨t', h1, rfl⟩ := Option.map_eq_some_iff.mp ht
    have hk : t'.kind = .INSTR_NAME := by have := List.find?_some h1; simpa using this
    exact ⟨t', h1, by simp [mvT, hk]⟩
  constructor
  · intro hr
    generalize hX : M x = X at hr
    cases hr with
    | operand h1 h2 h3 h4 h5 =>
      subst hX
      obtain ⟨p, h6, rfl⟩ := hpar h1
      have hpt := (h.parent h6).1
      obtain ⟨t', h7, h8⟩ := htok hpt h3
      rw [← h8] at h4 h5
      exact .operand h6 h2 h7 h4 fun ht => (hhead h6 h2).mp (h5 ht)
    | func h1 h2 h3 =>
      subst hX
      obtain ⟨p, h6, rfl⟩ := hpar h1
      exact .func h6 h2 ((hidx h6).mp h3)
    | type h1 h2 h3 =>
      subst hX
      obtain ⟨p, h6, rfl⟩ := hpar h1
      exact .type h6 h2 ((hidx h6).mp h3)
    | memory h1 h2 h3 =>
      subst hX
      obtain ⟨p, h6, rfl⟩ := hpar h1
      exact .memory h6 h2 ((hidx h6).mp h3)
    | table h1 h2 h3 =>
      subst hX
      obtain ⟨p, h6, rfl⟩ := hpar h1
      exact .table h6 h2 ((hidx h6).mp h3)
  · intro hr
    have hp' : ∀ {p : Red}, x.parent = some p → (M x).parent = some (M p) := by
      intro p hp; rw [mv_parent, hp]; rfl
    cases hr with
    | @operand p t _ h1 h2 h3 h4 h5 =>
      have hpt := (h.parent h1).1
      have hk : t.kind = .INSTR_NAME := by have := List.find?_some h3; simpa using this
      have ht : (M p).token .INSTR_NAME = some (mvT F name (Green.toks g) t) := by rw [mv_token hs hpt, h3]; rfl
      have he : (mvT F name (Green.toks g) t).text = t.text := by simp [mvT, hk]
      exact .operand (hp' h1) h2 ht (by rw [he]; exact h4) fun hi => (hhead h1 h2).mpr (h5 (by rw [← he]; exact hi))
    | func h1 h2 h3 => exact .func (hp' h1) h2 ((hidx h1).mpr h3)
    | type h1 h2 h3 => exact .type (hp' h1) h2 ((hidx h1).mpr h3)
    | memory h1 h2 h3 => exact .memory (hp' h1) h2 ((hidx h1).mpr h3)
    | table h1 h2 h3 => exact .table (hp' h1) h2 ((hidx h1).mpr h3)

/-- The number of a node without a name stays. -/
theorem mv_indexOf_num {x : Red} (h : InTree g x) (hno : nameOf x = none) : indexOf (M x) = indexOf x := by
  have h1 : nameOf (M x) = none := by
    have := nameOf_isSome (F := F) (name := name) hs h
    rw [hno] at this
    cases hm : nameOf (M x) with
    | none => rfl
    | some n => rw [hm] at this; cases this
  unfold indexOf
  rw [h1, hno]
  simp only
  rw [mv_childToks hs h, List.find?_map]
  have e : ((fun t : Tok => t.kind == .UNSIGNED_INT || t.kind == .INT) ∘ mvT F name (Green.toks g)) =
      fun t => t.kind == .UNSIGNED_INT || t.kind == .INT := rfl
  rw [e]
  cases h2 : x.childToks.find? (fun t => t.kind == .UNSIGNED_INT || t.kind == .INT) with
  | none => rfl
  | some t =>
    have hk : (t.kind == .IDENT) = false := by
      have := List.find?_some h2
      simp only [Bool.or_eq_true, beq_iff_eq] at this
      rcases this with h | h <;> rw [h] <;> rfl
    simp [mvT, hk]

end

/-- What the reference denotes by its name is the same in both trees. -/
def Keeps (F : Nat → Bool) (name : Text) (g : Green) (x : Red) : Prop :=
  ∀ sp n n', RefersTo x sp → nameOf x = some n → nameOf (mv F name g.toks x) = some n' →
    if sp = .label then
      (declarations sp x).find? (fun b => nameOf (mv F name g.toks b) == some n') = (declarations sp x).find? (fun b => nameOf b == some n)
    else ∀ d ∈ declarations sp x, nameOf (mv F name g.toks d) = some n' ↔ nameOf d = some n

theorem declarations_inTree {g : Green} (hs : Solid g) {x : Red} (h : InTree g x) {sp : Space} {d : Red}
    (hd : d ∈ declarations sp x) : InTree g d ∧ mayBeEmpty d.kind = false := by
  rcases declarations_cases hd with ⟨rfl, h1⟩ | ⟨rfl, f, h3, h4⟩ | ⟨h0, m, h3, h4⟩
  · refine ⟨h.ancestor (mem_labelsOf hd).2, ?_⟩
    revert h1
    cases d.kind <;> simp [isLabel, mayBeEmpty]
  · obtain ⟨h5, grp, _, h6, h7⟩ := mem_localSlots (h.ancestor (List.mem_of_find?_eq_some h3)) h4
    refine ⟨h5, ?_⟩
    rcases h7 with ⟨rfl, _⟩ | ⟨h7, _⟩
    · rcases h6 with ⟨h6, _⟩ | ⟨h6, _⟩ <;> rw [h6] <;> rfl
    · rw [h7]; rfl
  · have := List.mem_filter.mp h4
    refine ⟨(h.ancestor (List.mem_of_find?_eq_some h3)).descendant this.1, ?_⟩
    have h5 := this.2
    revert h5
    cases d.kind <;> simp [fieldSpace, mayBeEmpty]

theorem mv_resolves {g : Green} (hs : Solid g) (hn : name ≠ []) {x y : Red} (hx : InTree g x) (hy : InTree g y)
    (hk : Keeps F name g x) : Resolves (mv F name g.toks x) (mv F name g.toks y) ↔ Resolves x y := by
  have hden : ∀ {sp : Space} {i i' : Index}, RefersTo x sp → indexOf x = some i → indexOf (mv F name g.toks x) = some i' →
      (Denotes sp (mv F name g.toks x) i' (mv F name g.toks y) ↔ Denotes sp x i y) := by
    intro sp i i' hr hi hi'
    have hinj : ∀ {d : Red}, d ∈ declarations sp x → mv F name g.toks d = mv F name g.toks y → d = y := by
      intro d hd he
      obtain ⟨h1, h2⟩ := declarations_inTree hs hx hd
      exact (mv_inj hs hn hy h1 h2 he.symm).symm
    cases hnm : nameOf x with
    | none =>
      rw [mv_indexOf_num hs hx hnm, hi] at hi'
      cases hi'
      have hi2 := hi
      unfold indexOf at hi2
      rw [hnm] at hi2
      simp only at hi2
      split at hi2
      · obtain ⟨k, _, rfl⟩ := Option.map_eq_some_iff.mp hi2
        simp only [Denotes]
        rw [mv_declarations hs hx, List.getElem?_map]
        constructor
        · intro h1
          obtain ⟨d, h2, h3⟩ := Option.map_eq_some_iff.mp h1
          rw [h2, hinj (List.mem_of_getElem? h2) h3]
        · intro h1; rw [h1]; rfl
      · cases hi2
    | some n =>
      have : (nameOf (mv F name g.toks x)).isSome := by rw [nameOf_isSome hs hx, hnm]; rfl
      obtain ⟨n', hn'⟩ := Option.isSome_iff_exists.mp this
      have e1 : i = .name n := by unfold indexOf at hi; rw [hnm] at hi; simpa using hi.symm
      have e2 : i' = .name n' := by unfold indexOf at hi'; rw [hn'] at hi'; simpa using hi'.symm
      subst e1 e2
      have hK := hk sp n n' hr hnm hn'
      simp only [Denotes]
      by_cases hl : sp = .label
      · rw [if_pos hl] at hK
        rw [if_pos hl, if_pos hl, mv_declarations hs hx, List.find?_map]
        have e : ((fun b : Red => nameOf b == some n') ∘ mv F name g.toks) = fun b => nameOf (mv F name g.toks b) == some n' := rfl
        rw [e, hK]
        constructor
        · intro h1
          obtain ⟨d, h2, h3⟩ := Option.map_eq_some_iff.mp h1
          rw [h2, hinj (List.mem_of_find?_eq_some h2) h3]
        · intro h1; rw [h1]; rfl
      · rw [if_neg hl] at hK
        rw [if_neg hl, if_neg hl, mv_declarations hs hx]
        constructor
        · rintro ⟨h1, h2⟩
          obtain ⟨d, h3, h4⟩ := List.mem_map.mp h1
          have := hinj h3 h4
          subst this
          exact ⟨h3, (hK d h3).mp h2⟩
        · rintro ⟨h1, h2⟩
          exact ⟨List.mem_map_of_mem h1, (hK y h1).mpr h2⟩
  have hsome : (indexOf (mv F name g.toks x)).isSome ↔ (indexOf x).isSome := by
    cases hnm : nameOf x with
    | none => rw [mv_indexOf_num hs hx hnm]
    | some n =>
      have : (nameOf (mv F name g.toks x)).isSome := by rw [nameOf_isSome hs hx, hnm]; rfl
      obtain ⟨n', hn'⟩ := Option.isSome_iff_exists.mp this
      unfold indexOf
      rw [hnm, hn']; simp
  constructor
  · rintro ⟨sp, i', h1, h2, h3⟩
    obtain ⟨i, hi⟩ := Option.isSome_iff_exists.mp (hsome.mp (by rw [h2]; rfl))
    have hr := (mv_refersTo hs hn hx).mp h1
    exact ⟨sp, i, hr, hi, (hden hr hi h2).mp h3⟩
  · rintro ⟨sp, i, hr, hi, h3⟩
    obtain ⟨i', h2⟩ := Option.isSome_iff_exists.mp (hsome.mpr (by rw [hi]; rfl))
    exact ⟨sp, i', (mv_refersTo hs hn hx).mpr hr, h2, (hden hr hi h2).mpr h3⟩

end Verif.Moved
