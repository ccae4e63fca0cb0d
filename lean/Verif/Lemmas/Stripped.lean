import Verif.Lemmas.Moved
import Verif.Spec.Program
import Verif.Lemmas.Rewrite
/-!
The nodes of a tree without white space and comments, and the nodes of the tree they come from.
-/
namespace Verif
namespace Stripped
open Spec
open Moved (txt txt_append txt_toks txt_toksL)

/-- Kinds of tokens other than white space and comments. -/
def solid (k : Kind) : Bool := !(k == .WHITESPACE || k == .LINE_COMMENT || k == .BLOCK_COMMENT)

theorem isBlank_tok (k : Kind) (t : Text) : isBlank (.tok k t) = !solid k := by cases k <;> rfl

/-- The bytes of the solid tokens that begin before an offset. -/
def shift : Nat → List (Kind × Text) → Nat → Nat
  | _, [], _ => 0
  | o, (k, t) :: l, target =>
    if o < target then (if solid k then bytes t else 0) + shift (o + bytes t) l target else 0

/-- The solid tokens. -/
def ink (l : List (Kind × Text)) : List (Kind × Text) := l.filter fun kt => solid kt.1

theorem shift_split : ∀ (a b : List (Kind × Text)) (o : Nat), (∀ x ∈ a, x.2 ≠ []) →
    shift o (a ++ b) (o + bytes (txt a)) = bytes (txt (ink a))
  | [], b, o, _ => by
    cases b with
    | nil => simp [shift, txt, ink, bytes_nil]
    | cons x b => simp [shift, txt, ink, bytes_nil]
  | (k, t) :: a, b, o, h => by
    have h1 := bytes_pos (h (k, t) (.head _))
    have ih := shift_split a b (o + bytes t) fun x hx => h x (.tail _ hx)
    simp only [txt, List.map_cons, List.flatten_cons, bytes_append, List.cons_append, shift, ink, List.filter_cons] at *
    rw [if_pos (by omega), ← Nat.add_assoc, ih]
    split <;> simp [bytes_append]

theorem shift_mono : ∀ (l : List (Kind × Text)) (o a b : Nat), a ≤ b → shift o l a ≤ shift o l b
  | [], _, _, _, _ => Nat.le_refl _
  | (k, t) :: l, o, a, b, h => by
    have ih := shift_mono l (o + bytes t) a b h
    simp only [shift]
    by_cases h1 : o < a
    · have h2 : o < b := by omega
      rw [if_pos h1, if_pos h2]; exact Nat.add_le_add_left ih _
    · rw [if_neg h1]; exact Nat.zero_le _

section
variable (W : List (Kind × Text))

/-- Where an offset is in the text of the solid tokens. -/
def phi (off : Nat) : Nat := shift 0 W off
/-- A frame of the new tree. -/
def mvF (f : Frame) : Frame := ⟨f.kind, stripL f.cs, phi W f.off⟩
/-- A node of the new tree. -/
def mv (r : Red) : Red := ⟨mvF W r.self, r.up.map (mvF W)⟩
/-- A token of the new tree. -/
def mvT (t : Tok) : Tok := ⟨t.kind, t.text, phi W t.off, t.up.map (mvF W)⟩
/-- An element of the new tree. -/
def mvE : El → Option El
  | .node r => some (.node (mv W r))
  | .tok t => if solid t.kind then some (.tok (mvT W t)) else none

end

variable {W : List (Kind × Text)}

mutual
theorem toks_strip : ∀ g : Green, isBlank g = false → (strip g).toks = ink g.toks
  | .tok k t, h => by
    rw [isBlank_tok] at h
    simp only [Bool.not_eq_eq_eq_not, Bool.not_false] at h
    simp [strip, Green.toks, ink, h]
  | .node k cs, _ => by rw [strip, Green.toks, Green.toks]; exact toks_stripL cs
theorem toks_stripL : ∀ l : List Green, Green.toksL (stripL l) = ink (Green.toksL l)
  | [] => rfl
  | g :: l => by
    rw [stripL, Green.toksL]
    have ih := toks_stripL l
    have e : ink (g.toks ++ Green.toksL l) = ink g.toks ++ ink (Green.toksL l) := List.filter_append ..
    split
    · rename_i hb
      rw [ih, e]
      cases g with
      | node k cs => cases hb
      | tok k t =>
        rw [isBlank_tok] at hb
        simp only [Bool.not_eq_eq_eq_not, Bool.not_true] at hb
        simp [Green.toks, ink, hb]
    · rename_i hb
      rw [Green.toksL, ih, e, toks_strip g (by simpa using hb)]
end

theorem phi_step (hW : ∀ x ∈ W, x.2 ≠ []) {off : Nat} {cs : List Green} (h : Moved.Placed W off cs) :
    phi W (off + bytes (Green.textL cs)) = phi W off + bytes (Green.textL (stripL cs)) := by
  obtain ⟨a, c, h1, h2⟩ := h
  subst h2
  have e1 := shift_split a (Green.toksL cs ++ c) 0 fun x hx => hW x (by rw [h1]; simp [hx])
  have e2 := shift_split (a ++ Green.toksL cs) c 0 fun x hx => hW x (by rw [h1]; exact List.mem_append_left _ hx)
  rw [Nat.zero_add, ← List.append_assoc, ← h1] at e1
  have e3 : ink (a ++ Green.toksL cs) = ink a ++ ink (Green.toksL cs) := List.filter_append ..
  rw [Nat.zero_add, ← h1, txt_append, bytes_append, txt_toksL, e3, txt_append, bytes_append, ← toks_stripL, txt_toksL] at e2
  unfold phi
  rw [e1, e2]

theorem phi_blank (hW : ∀ x ∈ W, x.2 ≠ []) {off : Nat} {g : Green} (h : Moved.Placed W off [g]) (hb : isBlank g = true) :
    phi W (off + bytes g.text) = phi W off := by
  have := phi_step hW h
  simpa [stripL, hb, Green.textL, bytes_nil] using this

theorem phi_solid (hW : ∀ x ∈ W, x.2 ≠ []) {off : Nat} {g : Green} (h : Moved.Placed W off [g]) (hb : isBlank g = false) :
    phi W (off + bytes g.text) = phi W off + bytes (strip g).text := by
  have := phi_step hW h
  simpa [stripL, hb, Green.textL, bytes_nil] using this

theorem childEls_mv (hW : ∀ x ∈ W, x.2 ≠ []) (up : List Frame) : ∀ (cs : List Green) (off : Nat), Moved.Placed W off cs →
    childEls (up.map (mvF W)) (phi W off) (stripL cs) = (childEls up off cs).filterMap (mvE W)
  | [], _, _ => by simp [stripL, childEls]
  | g :: cs, off, h => by
    have ih := childEls_mv hW up cs _ h.tail
    rw [stripL, childEls_cons, List.filterMap_cons]
    by_cases hb : isBlank g = true
    · rw [if_pos hb]
      rw [phi_blank hW h.head hb] at ih
      have : mvE W (elAt up off g) = none := by
        cases g with
        | node k cs => cases hb
        | tok k t =>
          rw [isBlank_tok] at hb
          simp only [Bool.not_eq_eq_eq_not, Bool.not_true] at hb
          simp [elAt, mvE, hb]
      rw [this, ih]
    · have hb : isBlank g = false := by simpa using hb
      rw [hb, if_neg (by simp)]
      rw [phi_solid hW h.head hb] at ih
      have : mvE W (elAt up off g) = some (elAt (up.map (mvF W)) (phi W off) (strip g)) := by
        cases g with
        | node k cs => rfl
        | tok k t =>
          rw [isBlank_tok] at hb
          simp only [Bool.not_eq_eq_eq_not, Bool.not_false] at hb
          simp [elAt, mvE, hb, strip, mvT]
      rw [this, childEls_cons, ih]

mutual
theorem descG_mv (hW : ∀ x ∈ W, x.2 ≠ []) : ∀ (g : Green) (up : List Frame) (off : Nat), Moved.Placed W off [g] →
    descG (up.map (mvF W)) (phi W off) (strip g) = (descG up off g).map (mv W)
  | .tok k t, up, off, _ => by simp [strip, descG]
  | .node k cs, up, off, h => by
    have ih := descL_mv hW cs (⟨k, cs, off⟩ :: up) off h.inner
    simp only [List.map_cons] at ih
    rw [strip, descG, descG, List.map_cons, ← ih]
    rfl
theorem descL_mv (hW : ∀ x ∈ W, x.2 ≠ []) : ∀ (cs : List Green) (up : List Frame) (off : Nat), Moved.Placed W off cs →
    descL (up.map (mvF W)) (phi W off) (stripL cs) = (descL up off cs).map (mv W)
  | [], _, _, _ => by simp [stripL, descL]
  | g :: cs, up, off, h => by
    have h1 := descG_mv hW g up off h.head
    have h2 := descL_mv hW cs up _ h.tail
    rw [stripL, descL, List.map_append]
    by_cases hb : isBlank g = true
    · rw [if_pos hb]
      rw [phi_blank hW h.head hb] at h2
      have : descG up off g = [] := by
        cases g with
        | node k cs => cases hb
        | tok k t => rw [descG]
      rw [this, h2]; rfl
    · have hb : isBlank g = false := by simpa using hb
      rw [hb, if_neg (by simp)]
      rw [phi_solid hW h.head hb] at h2
      rw [descL, h1, h2]
end

section
variable {g : Green} (hs : Solid g)
include hs
local notation "M" => mv (Green.toks g)

theorem phi_zero : phi (Green.toks g) 0 = 0 := by
  unfold phi
  cases Green.toks g with
  | nil => rfl
  | cons x l => simp [shift]

theorem mv_root : M (Red.root g) = Red.root (strip g) := by
  obtain ⟨cs, rfl⟩ := id hs.root
  unfold mv mvF Red.root
  simp only [Green.kind, Green.children, strip, List.map_nil, phi_zero hs]

theorem mv_descendants {r : Red} (h : InTree g r) : (M r).descendants = r.descendants.map M := by
  have := descL_mv hs.tokens r.self.cs (r.self :: r.up) r.self.off (Moved.inTree_placed hs h)
  unfold Red.descendants
  rw [List.map_cons, ← this]
  rfl

theorem mv_els {r : Red} (h : InTree g r) : (M r).els = r.els.filterMap (mvE (Green.toks g)) := by
  have := childEls_mv hs.tokens (r.self :: r.up) r.self.cs r.self.off (Moved.inTree_placed hs h)
  unfold Red.els
  rw [← this]
  rfl

theorem mv_children {r : Red} (h : InTree g r) : (M r).children = r.children.map M := by
  unfold Red.children
  rw [mv_els hs h, List.filterMap_filterMap, List.map_filterMap]
  congr 1
  funext e
  cases e with
  | node n => rfl
  | tok t => simp only [mvE]; split <;> rfl

theorem mv_childToks {r : Red} (h : InTree g r) :
    (M r).childToks = (r.childToks.filter fun t => solid t.kind).map (mvT (Green.toks g)) := by
  unfold Red.childToks
  rw [mv_els hs h, List.filterMap_filterMap]
  generalize r.els = l
  induction l with
  | nil => rfl
  | cons e l ih =>
    cases e with
    | node n => simpa [mvE] using ih
    | tok t =>
      by_cases hb : solid t.kind = true
      · rw [List.filterMap_cons, List.filterMap_cons]
        simp only [List.filter_cons, hb, if_true, List.map_cons, ← ih, mvE, Option.bind_some]
      · have hb : solid t.kind = false := by simpa using hb
        rw [List.filterMap_cons, List.filterMap_cons]
        simp [List.filter_cons, hb, ← ih, mvE]

theorem find_solid {p : Tok → Bool} (hp : ∀ t, p t = true → solid t.kind = true) (l : List Tok) :
    (l.filter fun t => solid t.kind).find? p = l.find? p := by
  rw [List.find?_filter]
  congr 1
  funext t
  cases hpt : p t with
  | false => simp
  | true => simp [hp t hpt]

theorem mv_token {r : Red} (h : InTree g r) {k : Kind} (hk : solid k = true) : (M r).token k = (r.token k).map (mvT (Green.toks g)) := by
  unfold Red.token
  rw [mv_childToks hs h, List.find?_map]
  have e : ((fun t : Tok => t.kind == k) ∘ mvT (Green.toks g)) = fun t => t.kind == k := rfl
  rw [e, find_solid hs (fun t ht => by rw [show t.kind = k by simpa using ht]; exact hk)]

end

@[simp] theorem mv_kind (r : Red) : (mv W r).kind = r.kind := rfl

theorem mv_parent (r : Red) : (mv W r).parent = r.parent.map (mv W) := by
  unfold Red.parent mv
  cases r.up <;> rfl

theorem mv_redsOf : ∀ l : List Frame, redsOf (l.map (mvF W)) = (redsOf l).map (mv W)
  | [] => rfl
  | f :: l => by rw [List.map_cons, redsOf, redsOf, List.map_cons, mv_redsOf l]; rfl

theorem mv_ancestors (r : Red) : (mv W r).ancestors = r.ancestors.map (mv W) := by
  unfold Red.ancestors
  rw [← mv_redsOf]
  rfl

theorem mv_scopeOf (sp : Space) (r : Red) : scopeOf sp (mv W r) = (scopeOf sp r).map (mv W) := by
  unfold scopeOf
  rw [mv_ancestors, List.find?_map]
  rfl

/-! ### Different nodes with ink stay different -/

/-- The node has a token other than white space and comments. -/
def Inked (r : Red) : Prop := ∃ kt ∈ Green.toksL r.self.cs, solid kt.1 = true

theorem mv_inj {g : Green} (hs : Solid g) {m n : Red} (hm : InTree g m) (hn' : InTree g n)
    (he : Inked m) (h : mv g.toks m = mv g.toks n) : m = n := by
  have p1 := Moved.inTree_placed hs hm
  have p2 := Moved.inTree_placed hs hn'
  have h2 : phi g.toks m.start = phi g.toks n.start := congrArg Red.start h
  have h3 : (mv g.toks m).stop = (mv g.toks n).stop := congrArg Red.stop h
  have e1 : phi g.toks m.stop = (mv g.toks m).stop := phi_step hs.tokens p1
  have e2 : phi g.toks n.stop = (mv g.toks n).stop := phi_step hs.tokens p2
  have hpos : phi g.toks m.start < phi g.toks m.stop := by
    have : phi g.toks m.stop = phi g.toks m.start + bytes (Green.textL (stripL m.self.cs)) := phi_step hs.tokens p1
    have hp : 0 < bytes (Green.textL (stripL m.self.cs)) := by
      obtain ⟨kt, h4, h5⟩ := he
      rw [← txt_toksL, toks_stripL]
      have h6 : kt ∈ ink (Green.toksL m.self.cs) := List.mem_filter.mpr ⟨h4, h5⟩
      apply bytes_pos
      intro hnil
      have := List.flatten_eq_nil_iff.mp hnil kt.2 (List.mem_map_of_mem h6)
      obtain ⟨a, c, h7, _⟩ := p1
      exact hs.tokens kt (by rw [h7]; simp [h4]) this
    omega
  have hlen : m.up.length = n.up.length := by
    have := congrArg (fun r : Red => r.up.length) h
    simpa [mv] using this
  rcases hm.nested hn' with h4 | ⟨l, h4, h5⟩ | ⟨l, h4, h5⟩ | h4 | h4
  · exact h4
  · have := congrArg List.length h5
    simp only [List.length_cons, List.length_append] at this
    have := List.length_pos_iff.mpr h4
    omega
  · have := congrArg List.length h5
    simp only [List.length_cons, List.length_append] at this
    have := List.length_pos_iff.mpr h4
    omega
  · have := shift_mono g.toks 0 _ _ h4
    unfold phi at *
    omega
  · have := shift_mono g.toks 0 _ _ h4
    unfold phi at *
    omega

/-! ### Names -/

section
variable {g : Green} (hs : Solid g)
include hs
local notation "M" => mv (Green.toks g)

theorem mv_nameOf {r : Red} (h : InTree g r) : nameOf (M r) = nameOf r := by
  unfold nameOf
  rw [mv_token hs h rfl]
  cases r.token .IDENT <;> rfl

theorem mv_indexOf {r : Red} (h : InTree g r) : indexOf (M r) = indexOf r := by
  unfold indexOf
  rw [mv_nameOf hs h, mv_childToks hs h, List.find?_map]
  have e : ((fun t : Tok => t.kind == .UNSIGNED_INT || t.kind == .INT) ∘ mvT (Green.toks g)) =
      fun t => t.kind == .UNSIGNED_INT || t.kind == .INT := rfl
  rw [e, find_solid hs (fun t ht => by
    simp only [Bool.or_eq_true, beq_iff_eq] at ht
    rcases ht with h | h <;> rw [h] <;> rfl)]
  cases r.childToks.find? (fun t => t.kind == .UNSIGNED_INT || t.kind == .INT) <;> rfl

theorem mv_filter {p : Kind → Bool} (l : List Red) : (l.map M).filter (fun n => p n.kind) = (l.filter fun n => p n.kind).map M := by
  rw [List.filter_map]; rfl

theorem mv_indexSpace {m : Red} (h : InTree g m) (sp : Space) : indexSpace sp (M m) = (indexSpace sp m).map M := by
  unfold indexSpace
  rw [mv_descendants hs h, List.filter_map]
  rfl

theorem mv_slots {r : Red} (h : InTree g r) : slots (M r) = (slots r).map M := by
  unfold slots
  rw [mv_nameOf hs h, mv_children hs h, List.filter_map]
  split <;> rfl

theorem mv_slotsL (l : List Red) (h : ∀ r ∈ l, InTree g r) : (l.map M).flatMap slots = (l.flatMap slots).map M := by
  induction l with
  | nil => rfl
  | cons a l ih =>
    rw [List.map_cons, List.flatMap_cons, List.flatMap_cons, List.map_append, mv_slots hs (h a (.head _)),
      ih fun r hr => h r (.tail _ hr)]

theorem mv_localSlots {f : Red} (h : InTree g f) : localSlots (M f) = (localSlots f).map M := by
  unfold localSlots
  simp only [mv_children hs h, List.filter_map, List.map_append]
  have hc : ∀ r ∈ f.children, InTree g r := fun r hr => h.child hr
  have e : ∀ k : Kind, ((fun c : Red => c.kind == k) ∘ M) = fun c => c.kind == k := fun k => rfl
  simp only [e]
  congr 1
  · have : ∀ l : List Red, (∀ r ∈ l, InTree g r) → (l.map M).flatMap (fun tu => tu.children.filter fun c => c.kind == .PARAM) =
        (l.flatMap fun tu => tu.children.filter fun c => c.kind == .PARAM).map M := by
      intro l hl
      induction l with
      | nil => rfl
      | cons a l ih =>
        rw [List.map_cons, List.flatMap_cons, List.flatMap_cons, List.map_append, ih fun r hr => hl r (.tail _ hr),
          mv_children hs (hl a (.head _)), List.filter_map]
        rfl
    rw [← List.map_take, this _ fun r hr => hc r (List.mem_filter.mp (List.mem_of_mem_take hr)).1]
    refine mv_slotsL hs _ fun r hr => ?_
    obtain ⟨tu, h1, h2⟩ := List.mem_flatMap.mp hr
    exact (hc tu (List.mem_filter.mp (List.mem_of_mem_take h1)).1).child (List.mem_filter.mp h2).1
  · exact mv_slotsL hs _ fun r hr => hc r (List.mem_filter.mp hr).1

theorem mv_labelsOf : ∀ l : List Red, labelsOf (l.map M) = (labelsOf l).map M
  | [] => rfl
  | [_] => rfl
  | c :: a :: up => by
    have ih := mv_labelsOf (a :: up)
    simp only [List.map_cons] at ih ⊢
    rw [labelsOf, labelsOf, ih]
    have : inCondition (M c) (M a) = inCondition c a := rfl
    rw [this, mv_kind]
    split <;> rfl

theorem mv_declarations {x : Red} (h : InTree g x) (sp : Space) : declarations sp (M x) = (declarations sp x).map M := by
  have hsc : ∀ sp r, scopeOf sp x = some r → InTree g r := fun sp r hr => h.ancestor (List.mem_of_find?_eq_some hr)
  unfold declarations
  cases sp <;> simp only
  case label => rw [mv_ancestors, mv_labelsOf hs]
  case «local» =>
    rw [mv_scopeOf]
    cases h1 : scopeOf .local x with
    | none => rfl
    | some r => exact mv_localSlots hs (hsc _ r h1)
  all_goals
    rw [mv_scopeOf]
    cases h1 : scopeOf _ x with
    | none => rfl
    | some r => exact mv_indexSpace hs (hsc _ r h1) _

theorem mv_refersTo {x : Red} (h : InTree g x) (hi : Inked x) {sp : Space} : RefersTo (M x) sp ↔ RefersTo x sp := by
  have hpar : ∀ {q : Red}, (M x).parent = some q → ∃ p, x.parent = some p ∧ q = M p := by
    intro q hq
    rw [mv_parent] at hq
    obtain ⟨p, h1, h2⟩ := Option.map_eq_some_iff.mp hq
    exact ⟨p, h1, h2.symm⟩
  have hidx : ∀ {p : Red}, x.parent = some p → ((M p).children.find? (fun c => c.kind == .INDEX) = some (M x) ↔
      p.children.find? (fun c => c.kind == .INDEX) = some x) := by
    intro p hp
    have hpt := (h.parent hp).1
    rw [mv_children hs hpt, List.find?_map]
    have e : ((fun c : Red => c.kind == .INDEX) ∘ M) = fun c => c.kind == .INDEX := rfl
    rw [e]
    constructor
    · intro h1
      obtain ⟨c, h2, h3⟩ := Option.map_eq_some_iff.mp h1
      have := mv_inj hs h (hpt.child (List.mem_of_find?_eq_some h2)) hi h3.symm
      rw [h2, this]
    · intro h1
      rw [h1]; rfl
  have hhead : ∀ {p : Red}, x.parent = some p → p.kind = .PLAIN_INSTR → ((M p).children.head? = some (M x) ↔
      p.children.head? = some x) := by
    intro p hp hk
    have hpt := (h.parent hp).1
    rw [mv_children hs hpt, List.head?_map]
    constructor
    · intro h1
      obtain ⟨c, h2, h3⟩ := Option.map_eq_some_iff.mp h1
      have hc : c ∈ p.children := List.mem_of_head? h2
      have := mv_inj hs h (hpt.child hc) hi h3.symm
      rw [h2, this]
    · intro h1
      rw [h1]; rfl
  have htok : ∀ {p : Red}, InTree g p → ∀ {t : Tok}, (M p).token .INSTR_NAME = some t → ∃ t', p.token .INSTR_NAME = some t' ∧ t'.text = t.text := by
    intro p hp t ht
    rw [mv_token hs hp rfl] at ht
    obtain ⟨t', h1, rfl⟩ := Option.map_eq_some_iff.mp ht
    exact ⟨t', h1, rfl⟩
  constructor
  · intro hr
    generalize hX : M x = X at hr
    cases hr with
    | operand h1 h2 h3 h4 h5 =>
      subst hX
      obtain ⟨p, h6, rfl⟩ := hpar h1
      have hpt := (h.parent h6).1
      obtain ⟨t', h7, h8⟩ := htok hpt h3
      rw [← h8] at h4 h5
      exact .operand h6 h2 h7 h4 fun ht => (hhead h6 h2).mp (h5 ht)
    | func h1 h2 h3 =>
      subst hX
      obtain ⟨p, h6, rfl⟩ := hpar h1
      exact .func h6 h2 ((hidx h6).mp h3)
    | type h1 h2 h3 =>
      subst hX
      obtain ⟨p, h6, rfl⟩ := hpar h1
      exact .type h6 h2 ((hidx h6).mp h3)
    | memory h1 h2 h3 =>
      subst hX
      obtain ⟨p, h6, rfl⟩ := hpar h1
      exact .memory h6 h2 ((hidx h6).mp h3)
    | table h1 h2 h3 =>
      subst hX
      obtain ⟨p, h6, rfl⟩ := hpar h1
      exact .table h6 h2 ((hidx h6).mp h3)
  · intro hr
    have hp' : ∀ {p : Red}, x.parent = some p → (M x).parent = some (M p) := by
      intro p hp; rw [mv_parent, hp]; rfl
    cases hr with
    | @operand p t _ h1 h2 h3 h4 h5 =>
      have hpt := (h.parent h1).1
      have ht : (M p).token .INSTR_NAME = some (mvT (Green.toks g) t) := by rw [mv_token hs hpt rfl, h3]; rfl
      have he : (mvT (Green.toks g) t).text = t.text := rfl
      exact .operand (hp' h1) h2 ht (by rw [he]; exact h4) fun hi => (hhead h1 h2).mpr (h5 (by rw [← he]; exact hi))
    | func h1 h2 h3 => exact .func (hp' h1) h2 ((hidx h1).mpr h3)
    | type h1 h2 h3 => exact .type (hp' h1) h2 ((hidx h1).mpr h3)
    | memory h1 h2 h3 => exact .memory (hp' h1) h2 ((hidx h1).mpr h3)
    | table h1 h2 h3 => exact .table (hp' h1) h2 ((hidx h1).mpr h3)


omit hs in
theorem els_toks {up : List Frame} {t : Tok} : ∀ (cs : List Green) (off : Nat), El.tok t ∈ childEls up off cs → (t.kind, t.text) ∈ Green.toksL cs
  | [], _, h => by simp [childEls] at h
  | c :: cs, off, h => by
    rw [childEls_cons] at h
    rw [Green.toksL]
    rcases List.mem_cons.mp h with h | h
    · cases c with
      | node k l => cases h
      | tok k s => cases h; simp [Green.toks]
    · exact List.mem_append_right _ (els_toks cs _ h)

omit hs in
/-- A node with an index has ink. -/
theorem indexOf_inked {x : Red} (h : (indexOf x).isSome) : Inked x := by
  have : ∃ t ∈ x.childToks, solid t.kind = true := by
    unfold indexOf at h
    cases hn : nameOf x with
    | some n =>
      unfold nameOf at hn
      obtain ⟨t, h1, _⟩ := Option.map_eq_some_iff.mp hn
      exact ⟨t, (token_mem h1).1, by rw [(token_mem h1).2]; rfl⟩
    | none =>
      rw [hn] at h
      simp only at h
      cases h2 : x.childToks.find? (fun t => t.kind == .UNSIGNED_INT || t.kind == .INT) with
      | none => rw [h2] at h; cases h
      | some t =>
        refine ⟨t, List.mem_of_find?_eq_some h2, ?_⟩
        have := List.find?_some h2
        simp only [Bool.or_eq_true, beq_iff_eq] at this
        rcases this with h | h <;> rw [h] <;> rfl
  obtain ⟨t, h1, h2⟩ := this
  obtain ⟨e, h3, h4⟩ := List.mem_filterMap.mp h1
  cases e with
  | node n => cases h4
  | tok t' =>
    cases h4
    exact ⟨(t.kind, t.text), els_toks x.self.cs _ h3, h2⟩

theorem mv_resolves (hd : ∀ r, InTree g r → (isLabel r.kind = true ∨ symClass r.kind = some .field ∨ symClass r.kind = some .slot) → Inked r)
    {x y : Red} (hx : InTree g x) (hy : InTree g y) : Resolves (M x) (M y) ↔ Resolves x y := by
  have hden : ∀ {sp : Space} {i : Index}, (Denotes sp (M x) i (M y) ↔ Denotes sp x i y) := by
    intro sp i
    have hinj : ∀ {d : Red}, d ∈ declarations sp x → M d = M y → d = y := by
      intro d hdd he
      obtain ⟨h1, _⟩ := Moved.declarations_inTree hs hx hdd
      refine mv_inj hs h1 hy (hd d h1 ?_) he
      rcases declarations_cases hdd with ⟨_, h⟩ | ⟨rfl, f, h3, h4⟩ | ⟨h0, m, h3, h4⟩
      · exact .inl h
      · exact .inr (.inr (slot_class (hx.ancestor (List.mem_of_find?_eq_some h3)) h4))
      · have := (List.mem_filter.mp h4).2
        rw [beq_iff_eq] at this
        exact .inr (.inl (symClass_field this))
    have hnm : ∀ d ∈ declarations sp x, nameOf (M d) = nameOf d := fun d hdd =>
      mv_nameOf hs (Moved.declarations_inTree hs hx hdd).1
    cases i with
    | num k =>
      simp only [Denotes]
      rw [mv_declarations hs hx, List.getElem?_map]
      constructor
      · intro h1
        obtain ⟨d, h2, h3⟩ := Option.map_eq_some_iff.mp h1
        rw [h2, hinj (List.mem_of_getElem? h2) h3]
      · intro h1; rw [h1]; rfl
    | name n =>
      simp only [Denotes]
      split
      · rw [mv_declarations hs hx, List.find?_map]
        have e : (declarations sp x).find? ((fun b : Red => nameOf b == some n) ∘ M) = (declarations sp x).find? (fun b => nameOf b == some n) := by
          generalize declarations sp x = l at hnm
          induction l with
          | nil => rfl
          | cons a l ih =>
            rw [List.find?_cons, List.find?_cons, ih fun d hdd => hnm d (.tail _ hdd)]
            simp only [Function.comp_apply, hnm a (.head _)]
        rw [e]
        constructor
        · intro h1
          obtain ⟨d, h2, h3⟩ := Option.map_eq_some_iff.mp h1
          rw [h2, hinj (List.mem_of_find?_eq_some h2) h3]
        · intro h1; rw [h1]; rfl
      · rw [mv_declarations hs hx]
        constructor
        · rintro ⟨h1, h2⟩
          obtain ⟨d, h3, h4⟩ := List.mem_map.mp h1
          have := hinj h3 h4
          subst this
          exact ⟨h3, by rw [← hnm d h3]; exact h2⟩
        · rintro ⟨h1, h2⟩
          exact ⟨List.mem_map_of_mem h1, by rw [hnm y h1]; exact h2⟩
  constructor
  · rintro ⟨sp, i, h1, h2, h3⟩
    rw [mv_indexOf hs hx] at h2
    exact ⟨sp, i, (mv_refersTo hs hx (indexOf_inked (by rw [h2]; rfl))).mp h1, h2, hden.mp h3⟩
  · rintro ⟨sp, i, h1, h2, h3⟩
    exact ⟨sp, i, (mv_refersTo hs hx (indexOf_inked (by rw [h2]; rfl))).mpr h1, by rw [mv_indexOf hs hx]; exact h2, hden.mpr h3⟩

end

/-! ### Documents without errors -/

theorem inked {g : Green} (hs : Solid g) (hd : DerivedL g.children) {r : Red} (h : InTree g r) (hr : rank r.kind = 0)
    (he : mayBeEmpty r.kind = false) : Inked r := by
  obtain ⟨⟨_, h2, h3, _⟩, _⟩ := h.frameOk hs
  have hst : StartsSolid r.self.cs := by
    cases hpar : r.parent with
    | none =>
      rw [h.parent_none hpar] at he
      obtain ⟨cs, rfl⟩ := hs.root
      cases he
    | some p =>
      obtain ⟨hp, hc⟩ := h.parent hpar
      obtain ⟨⟨a, b, e, _⟩, _⟩ := Red.mem_children.mp hc
      have := (derivedL_iff.mp (InTree.derivedL hd p hp) (.node r.self.kind r.self.cs) (by rw [e]; simp)).2.1.2.2
      rcases this with this | ⟨this, _⟩
      · exact this
      · exfalso
        simp only [Red.kind] at hr
        rcases this with this | this <;> rw [this] at hr <;> cases hr
  obtain ⟨⟨k, cs, off⟩, up⟩ := r
  simp only [Red.kind] at *
  cases cs with
  | nil => exact absurd rfl (h3 he)
  | cons c cs =>
    cases c with
    | node k' cs' => simp only [HeadOk, hr] at h2; omega
    | tok k' s =>
      have := hst _ _ rfl
      rw [isBlank_tok] at this
      exact ⟨(k', s), by simp [Green.toksL, Green.toks], by simpa using this⟩

/-- Leaving white space and comments out keeps what the names stand for. -/
theorem strip_meaning {g : Green} (hs : Solid g) (hd : DerivedL g.children) : SameMeaning g (strip g) := by
  have hdesc := mv_descendants hs (InTree.root g)
  rw [mv_root hs] at hdesc
  refine ⟨by rw [hdesc, List.map_map]; rfl, ?_⟩
  intro i j x y x' y' h1 h2 h3 h4
  rw [hdesc, List.getElem?_map, h1] at h3
  rw [hdesc, List.getElem?_map, h2] at h4
  cases h3; cases h4
  refine mv_resolves hs (fun r hr hk => ?_) (List.mem_of_getElem? h1) (List.mem_of_getElem? h2)
  refine inked hs hd hr ?_ ?_ <;> revert hk <;> cases r.kind <;> simp [isLabel, symClass, fieldSpace, rank, mayBeEmpty]

end Stripped

open Spec

theorem Spec.SameMeaning.symm {g g' : Green} (h : SameMeaning g g') : SameMeaning g' g :=
  ⟨h.1.symm, fun i j x y x' y' h1 h2 h3 h4 => (h.2 i j x' y' x y h3 h4 h1 h2).symm⟩

theorem Spec.SameMeaning.trans {g g' g'' : Green} (h : SameMeaning g g') (h' : SameMeaning g' g'') : SameMeaning g g'' := by
  refine ⟨h'.1.trans h.1, fun i j x y x' y' h1 h2 h3 h4 => ?_⟩
  have hl : (Red.root g').descendants.length = (Red.root g).descendants.length := by
    simpa using congrArg List.length h.1
  have hi := (List.getElem?_eq_some_iff.mp h1).1
  have hj := (List.getElem?_eq_some_iff.mp h2).1
  have e1 := List.getElem?_eq_getElem (l := (Red.root g').descendants) (i := i) (by omega)
  have e2 := List.getElem?_eq_getElem (l := (Red.root g').descendants) (i := j) (by omega)
  exact (h'.2 i j _ _ x' y' e1 e2 h3 h4).trans (h.2 i j x y _ _ h1 h2 e1 e2)

/-- Documents with the same parts, white space and comments left out, have the same meaning. -/
theorem meaning_of_strip {g g' : Green} (hs : Solid g) (hs' : Solid g') (hd : DerivedL g.children) (hd' : DerivedL g'.children)
    (h : strip g = strip g') : SameMeaning g g' :=
  (Stripped.strip_meaning hs hd).trans (h ▸ (Stripped.strip_meaning hs' hd').symm)

end Verif
