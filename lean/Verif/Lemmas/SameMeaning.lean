import Verif.Lemmas.Moved
import Verif.Props.C18
import Verif.Props.C60
/-!
Helper lemmas: what the names of a document with edited names stand for.
-/
namespace Verif
open Spec

namespace Moved

theorem sameMeaning {F : Nat → Bool} {name : Text} {g : Green} (hs : Solid g) (hn : name ≠ [])
    (hk : ∀ x, InTree g x → Keeps F name g x) : SameMeaning g (relabel F name 0 g) := by
  have hd := mv_descendants (F := F) (name := name) hs (InTree.root g)
  rw [mv_root hs] at hd
  refine ⟨by rw [hd, List.map_map]; rfl, ?_⟩
  intro i j x y x' y' h1 h2 h3 h4
  rw [hd, List.getElem?_map, h1] at h3
  rw [hd, List.getElem?_map, h2] at h4
  cases h3; cases h4
  exact mv_resolves hs hn (List.mem_of_getElem? h1) (List.mem_of_getElem? h2) (hk x (List.mem_of_getElem? h1))

/-- Which names are edited, if the edits are known. -/
theorem edited_iff {g : Green} (hs : Solid g) {src d : Text} (htext : g.text ++ d = src) {es : List TextEdit} {name : Text}
    {P : Red → Prop} (hes : ∀ e, e ∈ es ↔ e.newText = name ∧ ∃ y k, P y ∧ y.token .IDENT = some k ∧
      IsRange src (k.off, k.off + bytes k.text) e.range) (hP : ∀ y, P y → InTree g y)
    {F : Nat → Bool} (hF : ∀ off, F off = true ↔ EditedAt src es off) {y : Red} (hy : InTree g y) :
    Edited F y ↔ P y ∧ (nameOf y).isSome := by
  constructor
  · rintro ⟨t, h1, h2⟩
    obtain ⟨e, he, stop, ⟨a, b, e1, e2, e3⟩, _⟩ := (hF _).mp h2
    obtain ⟨_, y1, k, h3, h4, ⟨a', b', f1, f2, f3⟩, _⟩ := (hes e).mp he
    have := posAfter_inj e1 f1 (e3.symm.trans f3)
    have hoff : t.off = k.off := by simp only at e2 f2; omega
    have ht := tok_mem hy (token_mem h1).1
    have hk := tok_mem (hP y1 h3) (token_mem h4).1
    have := InTree.off_inj hs ht hk hoff
    subst this
    have p1 := childTok_parent (token_mem h1).1
    have p2 := childTok_parent (token_mem h4).1
    rw [p1] at p2
    cases p2
    exact ⟨h3, by unfold nameOf; rw [h1]; rfl⟩
  · rintro ⟨h1, h2⟩
    cases ht : y.token .IDENT with
    | none => unfold nameOf at h2; rw [ht] at h2; cases h2
    | some t =>
      refine ⟨t, ht, (hF _).mpr ?_⟩
      obtain ⟨r, hr⟩ := tok_range_ok hs htext (tok_mem hy (token_mem ht).1)
      have hr' := rowanRangeToLsp_iff.mp hr
      exact ⟨⟨r, name⟩, (hes _).mpr ⟨rfl, y, t, h1, ht, hr'⟩, _, hr'⟩

/-- A named node is in one scope. -/
theorem home_unique {g : Green} (hs : Solid g) {s s' y : Red} {sp sp' : Space} (h : Home g s sp y) (h' : Home g s' sp' y)
    (hl : sp ≠ .label) (hl' : sp' ≠ .label) (hn : (nameOf y).isSome) : s = s' := by
  cases ht : y.token .IDENT with
  | none => unfold nameOf at hn; rw [ht] at hn; cases hn
  | some t =>
    obtain ⟨S, a1, a2, _, _⟩ := home_sym h hl ht
    obtain ⟨S', b1, b2, _, _⟩ := home_sym h' hl' ht
    have := a1.det hs b1
    subst this
    obtain ⟨c1, c2⟩ := home_scope hs h hl
    obtain ⟨c3, c4⟩ := home_scope hs h' hl'
    exact InTree.key_inj hs c1 c3 (a2.symm.trans b2) c4

theorem home_inTree {g : Green} {s y : Red} {sp : Space} (h : Home g s sp y) : InTree g y := by
  cases h with
  | field h1 h2 => exact ((InTree.root g).child h1).descendant (List.mem_filter.mp h2).1
  | slot h1 _ h2 => exact (mem_localSlots h1 h2).1
  | ref h1 => exact h1

theorem home_not_label {g : Green} (hs : Solid g) {s y : Red} {sp : Space} (h : Home g s sp y) : isLabel y.kind = false := by
  cases h with
  | field h1 h2 =>
    have := (List.mem_filter.mp h2).2
    revert this
    cases y.kind <;> simp [fieldSpace, isLabel]
  | slot h1 _ h2 =>
    obtain ⟨_, grp, _, h6, h7⟩ := mem_localSlots h1 h2
    rcases h7 with ⟨rfl, _⟩ | ⟨h7, _⟩
    · rcases h6 with ⟨h6, _⟩ | ⟨h6, _⟩ <;> rw [h6] <;> rfl
    · rw [h7]; rfl
  | ref h1 h2 => rcases refersTo_kind hs h1 h2 with h | h <;> rw [h] <;> rfl

/-- The home of a reference. -/
theorem home_ref {g : Green} (hs : Solid g) {s z : Red} {sp sp' : Space} (hz : InTree g z) (hr : RefersTo z sp) (h : Home g s sp' z) :
    sp' = sp ∧ scopeOf sp z = some s := by
  cases h with
  | field _ h2 =>
    have := (List.mem_filter.mp h2).2
    rcases refersTo_kind hs hz hr with h | h <;> rw [h] at this <;> cases this
  | slot h1 _ h2 =>
    obtain ⟨_, grp, _, h6, h7⟩ := mem_localSlots h1 h2
    exfalso
    rcases h7 with ⟨rfl, _⟩ | ⟨h7, _⟩
    · rcases refersTo_kind hs hz hr with h | h <;> rcases h6 with ⟨h6, _⟩ | ⟨h6, _⟩ <;> rw [h] at h6 <;> cases h6
    · rcases refersTo_kind hs hz hr with h | h <;> rw [h] at h7 <;> cases h7
  | ref _ h2 h3 =>
    have := refersTo_fun h2 hr
    subst this
    exact ⟨rfl, h3⟩

/-- A name stands for what has the name. -/
theorem resolves_name {x d : Red} (h : Resolves x d) (hn : (nameOf x).isSome) : nameOf d = nameOf x := by
  obtain ⟨sp, i, r1, r2, r3⟩ := h
  obtain ⟨n, hn⟩ := Option.isSome_iff_exists.mp hn
  unfold indexOf at r2
  rw [hn] at r2
  cases r2
  rw [hn]
  simp only [Denotes] at r3
  split at r3
  · simpa using List.find?_some (p := fun b => nameOf b == some n) r3
  · exact r3.2

theorem find_congr {α : Type} {p q : α → Bool} : ∀ {l : List α}, (∀ b ∈ l, q b = p b) → l.find? q = l.find? p
  | [], _ => rfl
  | a :: l, h => by
    rw [List.find?_cons, List.find?_cons, h a (.head _), find_congr fun b hb => h b (.tail _ hb)]

theorem find_without {α : Type} {p q : α → Bool} {d : α} : ∀ {l : List α}, l.find? p ≠ some d → (∀ b ∈ l, b ≠ d → q b = p b) →
    q d = false → l.find? q = l.find? p
  | [], _, _, _ => rfl
  | a :: l, h, h1, h2 => by
    rw [List.find?_cons] at h ⊢
    rw [List.find?_cons]
    by_cases ha : a = d
    · subst ha
      rw [h2]
      cases hp : p a with
      | true => rw [hp] at h; exact absurd rfl h
      | false => rw [hp] at h; exact find_without h (fun b hb => h1 b (.tail _ hb)) h2
    · rw [h1 a (.head _) ha]
      cases hp : p a with
      | true => rfl
      | false => rw [hp] at h; exact find_without h (fun b hb => h1 b (.tail _ hb)) h2

theorem find_only {α : Type} {q : α → Bool} {d : α} : ∀ {l : List α}, d ∈ l → (∀ b ∈ l, q b = true ↔ b = d) → l.find? q = some d
  | [], h, _ => by cases h
  | a :: l, h, h1 => by
    rw [List.find?_cons]
    by_cases ha : a = d
    · rw [(h1 a (.head _)).mpr ha, ha]
    · have : q a = false := by
        cases hq : q a with
        | false => rfl
        | true => exact absurd ((h1 a (.head _)).mp hq) ha
      rw [this]
      rcases List.mem_cons.mp h with h | h
      · exact absurd h.symm ha
      · exact find_only h fun b hb => h1 b (.tail _ hb)

end Moved

end Verif
