import Verif.Lemmas.Legend
import Verif.Lemmas.Root
/-!
C24: the number sent with a token is the place, in the legend announced at initialization, of the type the token is
highlighted as; the legend is made of types the client knows.
-/
namespace Verif
open Spec

/-- The legend has no repetitions, and has exactly the types the client knows and the server uses. -/
theorem C24_legend_proved (svc : TokenService) (caps : Option (List Text)) :
    (svc.initialize caps).2.Nodup ∧
      ∀ n, n ∈ (svc.initialize caps).2 ↔ n ∈ caps.getD [] ∧ ∃ p : Paint, n = p.name := by
  cases caps with
  | none => simp [TokenService.initialize]
  | some types =>
    have h := kindsMap_ok types
    have e : (kindsMap types).map (·.2) = ((kindsMap types).map (·.1)).map fun c => c.paint.name := by
      rw [List.map_map]
      exact List.map_congr_left fun p hp => h.val p hp
    have inj : ∀ a b : Paint, a.name = b.name → a = b := by intro a b; cases a <;> cases b <;> decide
    refine ⟨?_, fun n => ?_⟩
    · simp only [TokenService.initialize]
      rw [e, List.nodup_iff_pairwise_ne, List.pairwise_map]
      refine (List.nodup_iff_pairwise_ne.mp h.nodup).imp ?_
      intro a b hab he
      exact hab (paint_inj (inj _ _ he))
    · simp only [TokenService.initialize, Option.getD_some]
      rw [e, List.mem_map]
      constructor
      · rintro ⟨c, hc, rfl⟩
        exact ⟨(h.mem c).mp hc, c.paint, rfl⟩
      · rintro ⟨hn, p, rfl⟩
        have : ∃ c : TokenClass, c.paint = p := by
          cases p with
          | type => exact ⟨.type, rfl⟩
          | parameter => exact ⟨.param, rfl⟩
          | «variable» => exact ⟨.var, rfl⟩
          | function => exact ⟨.func, rfl⟩
          | keyword => exact ⟨.keyword, rfl⟩
          | comment => exact ⟨.comment, rfl⟩
          | string => exact ⟨.string, rfl⟩
          | number => exact ⟨.number, rfl⟩
          | operator => exact ⟨.op, rfl⟩
        obtain ⟨c, rfl⟩ := this
        exact ⟨c, (h.mem c).mpr hn, rfl⟩

/-- C24: after the client has announced its token types (or none, to a fresh server), every answer to a request for all
tokens or for the tokens of a range lists, in document order, the highlighted tokens, each with its length and with the
place in the legend of the type it is highlighted as. -/
theorem C24_proved (dbg : Bool) (src : Text) (g : Green) (errs : List Err) (dropped : Text)
    (h : parse dbg src = .tree g errs dropped) (svc : TokenService) (caps : Option (List Text))
    (hc : caps = none → svc = .default) :
    (∀ data, semanticTokensFull dbg src (Red.root g) (svc.initialize caps).1 = .done data →
      ∃ hs, Highlighted (Red.root g).tokens (caps.getD []) hs ∧
        Matched (fun t s => s.length = bytes t.text ∧ ∃ p, Paints t p ∧ (svc.initialize caps).2[s.type]? = some p.name)
          hs data) ∧
    ∀ u u' w w' data, src = u ++ u' → src = w ++ w' →
      semanticTokensRange dbg src (Red.root g) (svc.initialize caps).1 ⟨posAfter u, posAfter w⟩ = .done (some data) →
      ∃ hs, Highlighted ((Red.root g).tokens.filter fun t => decide (bytes u < t.stop ∧ t.off < bytes w))
          (caps.getD []) hs ∧
        Matched (fun t s => s.length = bytes t.text ∧ ∃ p, Paints t p ∧ (svc.initialize caps).2[s.type]? = some p.name)
          hs data := by
  have hsol := parse_solid h
  have key : ∀ ts data dl ps, (∀ t ∈ ts, t ∈ (Red.root g).tokens) →
      buildTokens dbg src (tokenType (svc.initialize caps).1.kinds (symbolTable (Red.root g))) ts dl ps = .done data →
      ∃ hs, Highlighted ts (caps.getD []) hs ∧
        Matched (fun t s => s.length = bytes t.text ∧ ∃ p, Paints t p ∧ (svc.initialize caps).2[s.type]? = some p.name)
          hs data := by
    intro ts data dl ps hts hd
    refine ⟨_, sent_highlighted hsol hts hc, (build_types hd).mono ?_⟩
    rintro t ht s _ ⟨h1, h2⟩
    exact ⟨h2, sent_type hsol (hts t (List.mem_filter.mp ht).1) hc h1⟩
  refine ⟨fun data hd => key _ data 0 0 (fun t ht => ht) hd, fun u u' w w' data hu hw hd => ?_⟩
  have ha : lspPosToRowan src (posAfter u) = some (bytes u) := by
    rw [hu]; exact offsetAt_eq u u'
  have hb : lspPosToRowan src (posAfter w) = some (bytes w) := by
    rw [hw]; exact offsetAt_eq w w'
  unfold semanticTokensRange at hd
  rw [ha, hb] at hd
  have hsub : ∀ t ∈ tokensBetween (Red.root g) (bytes u) (bytes w), t ∈ (Red.root g).tokens := by
    intro t ht; rw [tokensBetween_eq] at ht; exact (List.mem_filter.mp ht).1
  have : ∃ p : Pos, buildTokens dbg src (tokenType (svc.initialize caps).1.kinds (symbolTable (Red.root g)))
      (tokensBetween (Red.root g) (bytes u) (bytes w)) p.line p.character = .done data := by
    simp only at hd
    split at hd
    · obtain ⟨p, _, hd⟩ := bind_done hd
      obtain ⟨d, h1, hd⟩ := bind_done hd
      cases hd
      exact ⟨p, h1⟩
    · obtain ⟨d, h1, hd⟩ := bind_done hd
      cases hd
      exact ⟨⟨0, 0⟩, h1⟩
  obtain ⟨p, hp⟩ := this
  obtain ⟨hs, h1, h2⟩ := key _ data _ _ hsub hp
  rw [tokensBetween_eq] at h1
  simp only [Bool.decide_and]
  exact ⟨hs, h1, h2⟩

/-- Non-trivial case: a client with repeated, unknown and unordered types; a function, a parameter, a local read by
number, and a keyword the client does not know. -/
example : ∃ g e d data, parse true t!"(module (func $f (param $x i32) local.get 0 call $f))" = .tree g e d ∧
    (TokenService.default.initialize (some [t!"operator", t!"macro", t!"parameter", t!"function", t!"operator"])).2 =
      [t!"operator", t!"parameter", t!"function"] ∧
    semanticTokensFull true t!"(module (func $f (param $x i32) local.get 0 call $f))" (Red.root g)
      (TokenService.default.initialize (some [t!"operator", t!"macro", t!"parameter", t!"function", t!"operator"])).1 =
        .done data ∧
    data.map (fun (s : SemTok) => (s.deltaLine, s.deltaStart, s.length, s.type)) =
      [(0, 14, 2, 2), (0, 10, 2, 1), (0, 8, 9, 0), (0, 10, 1, 1), (0, 2, 4, 0), (0, 5, 2, 2)] := by
  have : (parse true t!"(module (func $f (param $x i32) local.get 0 call $f))").test (fun g _ _ =>
      match semanticTokensFull true t!"(module (func $f (param $x i32) local.get 0 call $f))" (Red.root g)
        (TokenService.default.initialize (some [t!"operator", t!"macro", t!"parameter", t!"function", t!"operator"])).1 with
      | .done data => data.map (fun (s : SemTok) => (s.deltaLine, s.deltaStart, s.length, s.type)) ==
          [(0, 14, 2, 2), (0, 10, 2, 1), (0, 8, 9, 0), (0, 10, 1, 1), (0, 2, 4, 0), (0, 5, 2, 2)]
      | .panic => false) = true := by decide +kernel
  obtain ⟨g, e, d, h1, h2⟩ := ParseOut.of_test this
  split at h2
  · rename_i data hd
    exact ⟨g, e, d, data, h1, by decide, hd, by simpa using h2⟩
  · cases h2

end Verif
