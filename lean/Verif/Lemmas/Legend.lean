import Verif.Lemmas.Paint
import Verif.Lemmas.Encode
/-!
Lemmas: from the numbers that are sent for tokens to the announced legend.
-/
namespace Verif
open Spec

theorem Spec.Matched.mono {R S : α → β → Prop} : ∀ {as : List α} {bs : List β}, Matched R as bs →
    (∀ a ∈ as, ∀ b ∈ bs, R a b → S a b) → Matched S as bs
  | [], [], _, _ => trivial
  | a :: as, b :: bs, h, hm => ⟨hm a (by simp) b (by simp) h.1,
      Matched.mono h.2 fun a ha b hb => hm a (by simp [ha]) b (by simp [hb])⟩
  | [], _ :: _, h, _ => h.elim
  | _ :: _, [], h, _ => h.elim

theorem Spec.Matched.right {R : α → β → Prop} : ∀ {as : List α} {bs : List β}, Matched R as bs → ∀ b ∈ bs, ∃ a ∈ as, R a b
  | [], [], _, b, hb => by cases hb
  | a :: as, b' :: bs, h, b, hb => by
    rcases List.mem_cons.mp hb with rfl | hb
    · exact ⟨a, by simp, h.1⟩
    · obtain ⟨x, hx, hr⟩ := Matched.right h.2 b hb
      exact ⟨x, by simp [hx], hr⟩
  | [], _ :: _, h, _, _ => h.elim
  | _ :: _, [], h, _, _ => h.elim

theorem findIdx_kind {ks : List TokenClass} {c : TokenClass} :
    (ks.findIdx? (· == c)).isSome = true ↔ c ∈ ks := by
  rw [List.findIdx?_isSome, List.any_eq_true]
  simp only [beq_iff_eq, exists_eq_right]

/-- The classes a client gets highlighted after it has announced its token types. -/
theorem initialize_kinds {svc : TokenService} {caps : Option (List Text)} (hc : caps = none → svc = .default)
    (c : TokenClass) : c ∈ (svc.initialize caps).1.kinds ↔ c.paint.name ∈ caps.getD [] := by
  cases caps with
  | none => rw [hc rfl]; simp [TokenService.initialize, TokenService.default]
  | some types => exact (kindsMap_ok types).mem c

/-- The number of a class is its place in the legend. -/
theorem initialize_legend {svc : TokenService} {caps : Option (List Text)} (hc : caps = none → svc = .default)
    {c : TokenClass} {i : Nat} (h : (svc.initialize caps).1.kinds.findIdx? (· == c) = some i) :
    (svc.initialize caps).2[i]? = some c.paint.name := by
  cases caps with
  | none => rw [hc rfl] at h; simp [TokenService.initialize, TokenService.default] at h
  | some types =>
    simp only [TokenService.initialize] at h ⊢
    rw [List.findIdx?_eq_some_iff_getElem] at h
    obtain ⟨hi, h1, _⟩ := h
    rw [List.length_map] at hi
    rw [beq_iff_eq, List.getElem_map] at h1
    rw [List.getElem?_map, List.getElem?_eq_getElem hi, Option.map_some, ← h1]
    rw [(kindsMap_ok types).val _ (List.getElem_mem hi)]

/-- The tokens the loop sends are those that are highlighted. -/
theorem sent_highlighted (hs : Solid g) {ts : List Tok} (hts : ∀ t ∈ ts, t ∈ (Red.root g).tokens) {svc : TokenService}
    {caps : Option (List Text)} (hc : caps = none → svc = .default) :
    Highlighted ts (caps.getD []) (ts.filter fun t => t.kind != .WHITESPACE &&
      (tokenType (svc.initialize caps).1.kinds (symbolTable (Red.root g)) t).isSome) := by
  refine ⟨List.filter_sublist, fun t => ?_⟩
  rw [List.mem_filter]
  refine and_congr_right fun ht => ?_
  have h1 : (tokenType (svc.initialize caps).1.kinds (symbolTable (Red.root g)) t).isSome = true ↔
      ∃ p, Paints t p ∧ p.name ∈ caps.getD [] := by
    unfold tokenType
    constructor
    · intro h
      cases h2 : tokenClass (symbolTable (Red.root g)) t with
      | none => rw [h2] at h; simp at h
      | some c =>
        rw [h2, Option.bind_some, findIdx_kind, initialize_kinds hc] at h
        exact ⟨c.paint, (tokenClass_iff hs (hts t ht) _).mpr ⟨c, h2, rfl⟩, h⟩
    · rintro ⟨p, hp, hn⟩
      obtain ⟨c, h2, rfl⟩ := (tokenClass_iff hs (hts t ht) _).mp hp
      rw [h2, Option.bind_some, findIdx_kind, initialize_kinds hc]
      exact hn
  rw [Bool.and_eq_true, h1]
  constructor
  · exact And.right
  · rintro ⟨p, hp, hn⟩
    refine ⟨?_, p, hp, hn⟩
    rw [bne_iff_ne]
    intro hk
    unfold Paints at hp
    rw [hk] at hp
    exact hp

/-- The number sent for a token is the place of its type in the legend. -/
theorem sent_type (hs : Solid g) {t : Tok} (ht : t ∈ (Red.root g).tokens) {svc : TokenService}
    {caps : Option (List Text)} (hc : caps = none → svc = .default) {i : Nat}
    (h : tokenType (svc.initialize caps).1.kinds (symbolTable (Red.root g)) t = some i) :
    ∃ p, Paints t p ∧ (svc.initialize caps).2[i]? = some p.name := by
  unfold tokenType at h
  rw [Option.bind_eq_some_iff] at h
  obtain ⟨c, h1, h2⟩ := h
  exact ⟨c.paint, (tokenClass_iff hs ht _).mpr ⟨c, h1, rfl⟩, initialize_legend hc h2⟩

/-- Whatever the loop answers, it sends the number of every token that has one, in order, with its length. -/
theorem build_types {dbg : Bool} {src : Text} {ty : Tok → Option Nat} : ∀ {ts : List Tok} {dl ps : Nat} {data : List SemTok},
    buildTokens dbg src ty ts dl ps = .done data →
    Matched (fun t s => ty t = some s.type ∧ s.length = bytes t.text)
      (ts.filter fun t => t.kind != .WHITESPACE && (ty t).isSome) data := by
  intro ts
  induction ts with
  | nil => intro dl ps data h; simp only [buildTokens] at h; cases h; trivial
  | cons t ts ih =>
    intro dl ps data h
    simp only [buildTokens] at h
    by_cases hk : t.kind = .WHITESPACE
    · rw [if_pos hk] at h
      have e : (t.kind != .WHITESPACE && (ty t).isSome) = false := by rw [hk]; rfl
      rw [List.filter_cons, if_neg (by rw [e]; simp)]
      split at h <;> exact ih h
    · rw [if_neg hk] at h
      cases hty : ty t with
      | none =>
        rw [hty] at h
        rw [List.filter_cons, if_neg (by rw [hty]; simp)]
        exact ih h
      | some k =>
        rw [hty] at h
        rw [List.filter_cons, if_pos (by rw [hty]; simp [hk])]
        obtain ⟨p, _, h⟩ := bind_done h
        obtain ⟨d, _, h⟩ := bind_done h
        obtain ⟨rest, hr, h⟩ := bind_done h
        cases h
        exact ⟨⟨hty, rfl⟩, ih hr⟩

end Verif
