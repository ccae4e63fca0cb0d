import Verif.Lemmas.Flat
import Verif.Props.C01
import Verif.Lemmas.Legend
/-!
C23: a client that reads the answer to a request for semantic tokens sees exactly the highlighted tokens of the document
(or of the requested range), in order, each at its position and with its length.

Full statement (false of the code): for every source text, build profile, list of token types and range.
-/
namespace Verif
open Spec

/-- The tokens of a document that overlap the range between two offsets. -/
def Spec.tokensIn (g : Green) (a b : Nat) : List Tok :=
  (Red.root g).tokens.filter fun t => decide (a < t.stop ∧ t.off < b)

/-- The full statement of C23. -/
def C23_statement : Prop :=
  ∀ (dbg : Bool) (src : Text) (g : Green) (errs : List Err) (dropped : Text) (caps : Option (List Text)),
    parse dbg src = .tree g errs dropped →
    (∃ hs data, semanticTokensFull dbg src (Red.root g) (TokenService.default.initialize caps).1 = .done data ∧
      Highlighted (Red.root g).tokens (caps.getD []) hs ∧ Matched (SeenAt src) hs (decode data)) ∧
    ∀ u u' w w', src = u ++ u' → src = w ++ w' →
      ∃ hs data, semanticTokensRange dbg src (Red.root g) (TokenService.default.initialize caps).1
          ⟨posAfter u, posAfter w⟩ = .done (some data) ∧
        Highlighted (tokensIn g (bytes u) (bytes w)) (caps.getD []) hs ∧ Matched (SeenAt src) hs (decode data)

/-- The tokens that break the encoding are missing: no string and no error token spans lines, and if a block comment
does, the client knows comments. -/
def Spec.FlatTokens (g : Green) (caps : List Text) : Prop :=
  ∀ t ∈ (Red.root g).tokens, '\n' ∈ t.text →
    t.kind ≠ .STRING ∧ t.kind ≠ .ERROR ∧ (t.kind = .BLOCK_COMMENT → t!"comment" ∈ caps)


/-- The client sees the token with its length where it is, but too far to the left by the column of `p` if it is on the
line of `p`. -/
def Spec.SeenShort (src : Text) (p : Pos) (t : Tok) (s : Seen) : Prop :=
  s.length = bytes t.text ∧ ∃ u v, src = u ++ v ∧ bytes u = t.off ∧
    s.pos = if (posAfter u).line = p.line then ⟨p.line, (posAfter u).character - p.character⟩ else posAfter u

section
variable {dbg : Bool} {src : Text} {g : Green} {errs : List Err} {dropped : Text} {caps : Option (List Text)}

theorem flat_sent (h : parse dbg src = .tree g errs dropped) (hflat : FlatTokens g (caps.getD [])) {t : Tok}
    (ht : t ∈ (Red.root g).tokens) (hn : '\n' ∈ t.text) : t.kind = .WHITESPACE ∨ (t.kind = .BLOCK_COMMENT ∧
      tokenType (TokenService.default.initialize caps).1.kinds (symbolTable (Red.root g)) t ≠ none) := by
  have hs := parse_solid h
  have hshape : TokenShape t.kind t.text := by
    have h1 := C06_token_shapes _ _ _ _ _ h (t.kind, t.text)
    obtain ⟨cs, rfl⟩ := hs.root
    exact h1 (by rw [← Red.tokens_text]; exact List.mem_map.mpr ⟨t, ht, rfl⟩)
  obtain ⟨h1, h2, h3⟩ := hflat t ht hn
  rcases newline_kind hshape hn with hk | hk | hk | hk
  · exact .inl hk
  · refine .inr ⟨hk, ?_⟩
    have := ((sent_highlighted hs (fun t ht => ht) (svc := .default) (caps := caps) (fun _ => rfl)).mem t).mpr
      ⟨ht, .comment, by unfold Paints; rw [hk], h3 hk⟩
    have := (List.mem_filter.mp this).2
    rw [Bool.and_eq_true] at this
    exact Option.isSome_iff_ne_none.mp this.2
  · exact absurd hk h1
  · exact absurd hk h2

/-- C23 for requests for all tokens, for sources without a bad quote (see C01), without strings and error tokens that
span lines, and without block comments that span lines if the client does not know comments; moreover the tokens do not
overlap.  Missing for the full claim: the other sources, where it is false (`C23_string_false`, `C23_comment_false`);
ranges are in the theorems below. -/
theorem C23_full_partial (hq : ¬ BadQuote src ∨ errs = []) (h : parse dbg src = .tree g errs dropped)
    (hflat : FlatTokens g (caps.getD [])) :
    ∃ hs data, semanticTokensFull dbg src (Red.root g) (TokenService.default.initialize caps).1 = .done data ∧
      Highlighted (Red.root g).tokens (caps.getD []) hs ∧ Matched (SeenAt src) hs (decode data) ∧
      hs.Pairwise fun t t' => t.stop ≤ t'.off := by
  have hsol := parse_solid h
  have htext := C01_kept_partial _ _ _ _ _ hq h
  obtain ⟨data, h1, h2⟩ := segment_seen hsol htext (us := []) (ts := (Red.root g).tokens) (vs := []) (by simp) dbg
    (tokenType (TokenService.default.initialize caps).1.kinds (symbolTable (Red.root g)))
    (fun t ht hn => flat_sent h hflat ht hn)
  refine ⟨_, data, h1, sent_highlighted hsol (fun t ht => ht) (fun _ => rfl), h2.mono ?_, ?_⟩
  · rintro t _ s _ ⟨_, hl, u, v, hu, ho, hp⟩
    refine ⟨⟨u, v, hu, ho, ?_⟩, hl⟩
    rw [hp]
    exact shiftPos_zero _ _
  · exact (Red.tokens_order _).filter _

/-- C23 for requests for a range, for the same sources: the highlighted tokens of the range are sent in order and do not
overlap, but on the line of the first token of the range (which need not be highlighted) the client sees them too far to
the left by the column of that token.  Missing for the full claim: the tokens on that line, where it is false
(`C23_false`). -/
theorem C23_range_partial (hq : ¬ BadQuote src ∨ errs = []) (h : parse dbg src = .tree g errs dropped) (hflat : FlatTokens g (caps.getD []))
    {u u' w w' : Text} (hu : src = u ++ u') (hw : src = w ++ w') :
    ∃ hs data, semanticTokensRange dbg src (Red.root g) (TokenService.default.initialize caps).1 ⟨posAfter u, posAfter w⟩ =
        .done (some data) ∧
      Highlighted (tokensIn g (bytes u) (bytes w)) (caps.getD []) hs ∧
      (∀ t, (tokensIn g (bytes u) (bytes w)).head? = some t → ∀ u0 v0, src = u0 ++ v0 → bytes u0 = t.off →
        Matched (SeenShort src (posAfter u0)) hs (decode data)) ∧
      ((tokensIn g (bytes u) (bytes w)) = [] → hs = [] ∧ data = []) ∧ hs.Pairwise fun t t' => t.stop ≤ t'.off := by
  have hsol := parse_solid h
  have htext := C01_kept_partial _ _ _ _ _ hq h
  have ha : lspPosToRowan src (posAfter u) = some (bytes u) := by rw [hu]; exact offsetAt_eq u u'
  have hb : lspPosToRowan src (posAfter w) = some (bytes w) := by rw [hw]; exact offsetAt_eq w w'
  obtain ⟨us, vs, hsplit⟩ := tokensBetween_split (Red.root g) (bytes u) (bytes w)
  have hts : tokensBetween (Red.root g) (bytes u) (bytes w) = tokensIn g (bytes u) (bytes w) := by
    rw [tokensBetween_eq]; unfold tokensIn; simp only [Bool.decide_and]
  rw [hts] at hsplit
  have hsub : ∀ t ∈ tokensIn g (bytes u) (bytes w), t ∈ (Red.root g).tokens := fun t ht => (List.mem_filter.mp ht).1
  obtain ⟨data, h1, h2⟩ := segment_seen hsol htext hsplit dbg
    (tokenType (TokenService.default.initialize caps).1.kinds (symbolTable (Red.root g)))
    (fun t ht hn => flat_sent h hflat (hsub t ht) hn)
  have hord := ((Red.tokens_order (Red.root g)).filter fun t => decide (bytes u < t.stop ∧ t.off < bytes w))
  cases hh : (tokensIn g (bytes u) (bytes w)).head? with
  | none =>
    rw [List.head?_eq_none_iff] at hh
    refine ⟨[], [], ?_, ?_, ?_, ?_, ?_⟩
    · unfold semanticTokensRange
      rw [ha, hb]
      simp only [hts, hh]
      rfl
    · rw [hh]; exact ⟨List.Sublist.refl _, by simp⟩
    · intro t ht; cases ht
    · intro _; exact ⟨rfl, rfl⟩
    · exact List.Pairwise.nil
  | some t =>
    have hpos : t.off = bytes (textsOf us) := by
      obtain ⟨hp, _⟩ := tokens_lined hsol
      rw [hsplit, List.append_assoc] at hp
      have hp2 := (lined_append.mp (lined_append.mp hp).2).1
      rw [Nat.zero_add] at hp2
      rw [List.head?_eq_some_iff] at hh
      obtain ⟨ts, hh⟩ := hh
      rw [hh] at hp2
      exact hp2.1
    have hpre : src = textsOf us ++ (textsOf (tokensIn g (bytes u) (bytes w) ++ vs) ++ dropped) := by
      rw [← htext, ← (tokens_lined hsol).2]
      conv => lhs; rw [hsplit]
      simp only [textsOf_append, List.append_assoc]
    have hlc : lineCol src t.off = some (posAfter (textsOf us)) := by
      rw [hpos, hpre]; exact lineCol_eq _ _
    refine ⟨_, data, ?_, sent_highlighted hsol hsub (fun _ => rfl), ?_, ?_, ?_⟩
    · unfold semanticTokensRange
      rw [ha, hb]
      simp only [hts, hh, hlc, Ans.ofOption, Ans.bind, h1]
    · intro t' ht' u0 v0 hu0 ho
      cases ht'
      have e : u0 = textsOf us := cut_eq (hu0.symm.trans hpre) (by rw [ho, hpos])
      subst e
      refine h2.mono ?_
      rintro x _ s _ ⟨_, hl, p, q, hp, ho', hpos'⟩
      refine ⟨hl, p, q, hp, ho', ?_⟩
      rw [hpos']
      unfold shiftPos
      split
      · rename_i hl; rw [hl]
      · rfl
    · intro hn; rw [hn] at hh; cases hh
    · exact hord.filter _

/-- C23 for requests for a range that begins at the beginning of a line and not inside a block comment: exact. -/
theorem C23_range_line_partial (hq : ¬ BadQuote src ∨ errs = []) (h : parse dbg src = .tree g errs dropped)
    (hflat : FlatTokens g (caps.getD [])) {u u' w w' : Text} (hu : src = u ++ u') (hw : src = w ++ w')
    (hline : (posAfter u).character = 0)
    (hcom : ∀ t ∈ (Red.root g).tokens, t.kind = .BLOCK_COMMENT → ¬ (t.off < bytes u ∧ bytes u < t.stop)) :
    ∃ hs data, semanticTokensRange dbg src (Red.root g) (TokenService.default.initialize caps).1 ⟨posAfter u, posAfter w⟩ =
        .done (some data) ∧
      Highlighted (tokensIn g (bytes u) (bytes w)) (caps.getD []) hs ∧ Matched (SeenAt src) hs (decode data) ∧
      hs.Pairwise fun t t' => t.stop ≤ t'.off := by
  obtain ⟨hs, data, h1, h2, h3, h4, h5⟩ := C23_range_partial hq h hflat hu hw
  refine ⟨hs, data, h1, h2, ?_, h5⟩
  have hsol := parse_solid h
  have htext := C01_kept_partial _ _ _ _ _ hq h
  cases hh : (tokensIn g (bytes u) (bytes w)).head? with
  | none =>
    rw [List.head?_eq_none_iff] at hh
    obtain ⟨rfl, rfl⟩ := h4 hh
    trivial
  | some t =>
    have htin := List.mem_of_mem_head? hh
    have htok := (List.mem_filter.mp htin).1
    have htr := of_decide_eq_true (List.mem_filter.mp htin).2
    obtain ⟨p, q, hp, hpo⟩ := tok_split hsol htok
    have hsrc : src = p ++ (t.text ++ (q ++ dropped)) := by rw [← htext, hp]; simp only [List.append_assoc]
    have hm := h3 t hh p _ hsrc hpo
    by_cases hc0 : (posAfter p).character = 0
    · refine hm.mono ?_
      rintro x _ s _ ⟨hl, a, b, hab, ho, hpos⟩
      refine ⟨⟨a, b, hab, ho, ?_⟩, hl⟩
      rw [hpos, hc0]
      split
      · rename_i hl; rw [← hl]; rfl
      · rfl
    · -- the range begins inside the first token, which is white space with a line break
      have hfirst : ∀ x ∈ tokensIn g (bytes u) (bytes w), x = t ∨ t.stop ≤ x.off := by
        have hord : (tokensIn g (bytes u) (bytes w)).Pairwise fun t t' => t.stop ≤ t'.off :=
          (Red.tokens_order (Red.root g)).filter _
        rw [List.head?_eq_some_iff] at hh
        obtain ⟨ts, hh⟩ := hh
        rw [hh] at hord ⊢
        intro x hx
        rcases List.mem_cons.mp hx with rfl | hx
        · exact .inl rfl
        · exact .inr ((List.pairwise_cons.mp hord).1 x hx)
      have hge : t.off ≤ bytes u := by
        rcases Nat.lt_or_ge (bytes u) t.off with h6 | h6
        · exfalso
          obtain ⟨hpl, htx⟩ := tokens_lined hsol
          obtain ⟨x, hx, hx1, hx2⟩ := lined_covers hpl (Nat.zero_le (bytes u)) (by
            rw [htx, hp, bytes_append, bytes_append]; omega)
          have hxin : x ∈ tokensIn g (bytes u) (bytes w) :=
            List.mem_filter.mpr ⟨hx, decide_eq_true ⟨hx2, by omega⟩⟩
          have : t.off ≤ t.stop := by unfold Tok.stop; omega
          rcases hfirst x hxin with rfl | h7 <;> omega
        · exact h6
      obtain ⟨m, rfl⟩ := cut_prefix (hsrc.symm.trans hu) (by omega)
      have hmu : m ++ u' = t.text ++ (q ++ dropped) := by
        have := hu.symm.trans hsrc
        rw [List.append_assoc] at this
        exact List.append_cancel_left this
      have hle : bytes m ≤ bytes t.text := by
        have := htr.1
        unfold Tok.stop at this
        rw [bytes_append] at this
        omega
      obtain ⟨m', hm'⟩ := cut_prefix hmu hle
      have hnl : '\n' ∈ m := by
        apply count_pos.mp
        apply Nat.pos_of_ne_zero
        intro hz
        rw [posAfter_append, if_pos hz] at hline
        simp only at hline
        omega
      have hnt : '\n' ∈ t.text := by rw [hm']; simp [hnl]
      have hmne : 0 < bytes m := bytes_pos (by rintro rfl; simp at hnl)
      have hws : t.kind = .WHITESPACE := by
        rcases flat_sent h hflat htok hnt with h6 | ⟨h6, _⟩
        · exact h6
        · exact absurd ⟨by rw [bytes_append]; omega, htr.1⟩ (hcom t htok h6)
      refine hm.mono ?_
      rintro x hx s _ ⟨hl, a, b, hab, ho, hpos⟩
      refine ⟨⟨a, b, hab, ho, ?_⟩, hl⟩
      obtain ⟨hxin, pt, hpt, _⟩ := (h2.mem x).mp hx
      have hxt : t.stop ≤ x.off := by
        rcases hfirst x hxin with rfl | h7
        · unfold Paints at hpt; rw [hws] at hpt; exact hpt.elim
        · exact h7
      rw [← List.append_assoc] at hsrc
      obtain ⟨n, rfl⟩ := cut_prefix (hsrc.symm.trans hab) (by
        rw [bytes_append, ho, hpo]; unfold Tok.stop at hxt; exact hxt)
      have hcnt : 0 < (t.text ++ n).count '\n' := count_pos.mpr (by simp [hnt])
      rw [hpos, if_neg]
      rw [List.append_assoc, posAfter_append, if_neg (by omega)]
      simp only
      omega

end

/-- A client that sees a token where none of the tokens is has been told something wrong. -/
theorem seen_nowhere {src : Text} {all hs : List Tok} {caps : List Text} {data : List SemTok} {s : Seen}
    (hh : Highlighted all caps hs) (hm : Matched (SeenAt src) hs (decode data)) (hs : s ∈ decode data)
    (hno : (all.all fun t => lineCol src t.off != some s.pos) = true) : False := by
  obtain ⟨t, ht, ⟨u, v, hu, ho, hp⟩, _⟩ := hm.right s hs
  rw [List.all_eq_true] at hno
  have := hno t ((hh.mem t).mp ht).1
  rw [bne_iff_ne] at this
  apply this
  rw [← ho, hu, hp]
  exact lineCol_eq u v

/-- The code violates C23 for ranges that begin inside a line: in `(module (func))`, asked for the tokens from column 8
on, the keyword `func` of column 9 is sent so that the client sees it at column 1. -/
theorem C23_false : ¬ C23_statement := by
  intro h
  have : (parse true t!"(module (func))").test (fun g _ _ =>
      (match semanticTokensRange true t!"(module (func))" (Red.root g)
        (TokenService.default.initialize (some [t!"keyword"])).1 ⟨posAfter t!"(module ", posAfter t!"(module (func))"⟩ with
      | .done (some data) => decode data == [⟨⟨0, 1⟩, 4, 0⟩]
      | _ => false) && (tokensIn g 8 15).all fun t => lineCol t!"(module (func))" t.off != some ⟨0, 1⟩) = true := by
    decide +kernel
  obtain ⟨g, e, d, h1, h2⟩ := ParseOut.of_test this
  obtain ⟨hs, data, h3, h4, h5⟩ := (h _ _ _ _ _ (some [t!"keyword"]) h1).2 t!"(module " t!"(func))" t!"(module (func))" []
    rfl rfl
  rw [h3, Bool.and_eq_true, beq_iff_eq] at h2
  exact seen_nowhere h4 h5 (s := ⟨⟨0, 1⟩, 4, 0⟩) (by rw [h2.1]; simp) h2.2

/-- It also violates C23 for all tokens of a document, with a string that has an escaped line break: for
`(module (data "\` line break `" ""))` a debug build panics; a release build places the second string at column
4294967298 of the first line. -/
theorem C23_string_false :
    (∃ src g errs dropped, parse true src = .tree g errs dropped ∧
      semanticTokensFull true src (Red.root g) (TokenService.default.initialize (some [t!"string"])).1 = .panic) ∧
    ∃ src g errs dropped data, parse false src = .tree g errs dropped ∧
      semanticTokensFull false src (Red.root g) (TokenService.default.initialize (some [t!"string"])).1 = .done data ∧
      ¬ ∃ hs, Highlighted (Red.root g).tokens [t!"string"] hs ∧ Matched (SeenAt src) hs (decode data) := by
  constructor
  · have : (parse true t!"(module (data \"\\\n\" \"\"))").test (fun g _ _ =>
        match semanticTokensFull true t!"(module (data \"\\\n\" \"\"))" (Red.root g)
          (TokenService.default.initialize (some [t!"string"])).1 with
        | .panic => true
        | _ => false) = true := by decide +kernel
    obtain ⟨g, e, d, h1, h2⟩ := ParseOut.of_test this
    refine ⟨_, g, e, d, h1, ?_⟩
    split at h2
    · assumption
    · cases h2
  · have : (parse false t!"(module (data \"\\\n\" \"\"))").test (fun g _ _ =>
        (match semanticTokensFull false t!"(module (data \"\\\n\" \"\"))" (Red.root g)
          (TokenService.default.initialize (some [t!"string"])).1 with
        | .done data => (decode data).contains ⟨⟨0, 4294967298⟩, 2, 0⟩
        | _ => false) &&
        ((Red.root g).tokens.all fun t => lineCol t!"(module (data \"\\\n\" \"\"))" t.off != some ⟨0, 4294967298⟩)) =
          true := by decide +kernel
    obtain ⟨g, e, d, h1, h2⟩ := ParseOut.of_test this
    simp only [Bool.and_eq_true] at h2
    obtain ⟨h2, h3⟩ := h2
    split at h2
    · rename_i data hd
      refine ⟨_, g, e, d, data, h1, hd, ?_⟩
      rintro ⟨hs, h6, h7⟩
      exact seen_nowhere h6 h7 (List.contains_iff_mem.mp h2) h3
    · cases h2

/-- And for a client that does not know comments, after a block comment that spans lines: in `(module (;` line break
`;) (func))` the keyword `func` of the second line is seen on the first. -/
theorem C23_comment_false : ∃ src g errs dropped data, parse true src = .tree g errs dropped ∧
    semanticTokensFull true src (Red.root g) (TokenService.default.initialize (some [t!"keyword"])).1 = .done data ∧
      ¬ ∃ hs, Highlighted (Red.root g).tokens [t!"keyword"] hs ∧ Matched (SeenAt src) hs (decode data) := by
  have : (parse true t!"(module (;\n;) (func))").test (fun g _ _ =>
      (match semanticTokensFull true t!"(module (;\n;) (func))" (Red.root g)
        (TokenService.default.initialize (some [t!"keyword"])).1 with
      | .done data => (decode data).contains ⟨⟨0, 4⟩, 4, 0⟩
      | _ => false) &&
      ((Red.root g).tokens.all fun t => lineCol t!"(module (;\n;) (func))" t.off != some ⟨0, 4⟩)) = true := by
    decide +kernel
  obtain ⟨g, e, d, h1, h2⟩ := ParseOut.of_test this
  simp only [Bool.and_eq_true] at h2
  obtain ⟨h2, h3⟩ := h2
  split at h2
  · rename_i data hd
    refine ⟨_, g, e, d, data, h1, hd, ?_⟩
    rintro ⟨hs, h6, h7⟩
    exact seen_nowhere h6 h7 (List.contains_iff_mem.mp h2) h3
  · cases h2

/-- Non-trivial case: three lines with a block comment across two of them; a range from the second line on, which begins
inside the white space before it. -/
example : ∃ g e d, parse true t!"(module (func $f)\n  (func (;a\nb;) $g) (start $g))" = .tree g e d ∧
    ¬ BadQuote t!"(module (func $f)\n  (func (;a\nb;) $g) (start $g))" ∧
    FlatTokens g [t!"keyword", t!"function", t!"comment"] ∧
    (posAfter t!"(module (func $f)\n").character = 0 ∧
    (∀ t ∈ (Red.root g).tokens, t.kind = .BLOCK_COMMENT → ¬ (t.off < 18 ∧ 18 < t.stop)) ∧
    ∃ data, semanticTokensRange true t!"(module (func $f)\n  (func (;a\nb;) $g) (start $g))" (Red.root g)
        (TokenService.default.initialize (some [t!"keyword", t!"function", t!"comment"])).1
        ⟨posAfter t!"(module (func $f)\n", posAfter t!"(module (func $f)\n  (func (;a\nb;) $g) (sta"⟩ = .done (some data) ∧
      decode data = [⟨⟨1, 3⟩, 4, 0⟩, ⟨⟨1, 8⟩, 7, 2⟩, ⟨⟨2, 4⟩, 2, 1⟩, ⟨⟨2, 9⟩, 5, 0⟩] := by
  have : (parse true t!"(module (func $f)\n  (func (;a\nb;) $g) (start $g))").test (fun g _ _ =>
      (match semanticTokensRange true t!"(module (func $f)\n  (func (;a\nb;) $g) (start $g))" (Red.root g)
        (TokenService.default.initialize (some [t!"keyword", t!"function", t!"comment"])).1
        ⟨posAfter t!"(module (func $f)\n", posAfter t!"(module (func $f)\n  (func (;a\nb;) $g) (sta"⟩ with
      | .done (some data) => decode data == [⟨⟨1, 3⟩, 4, 0⟩, ⟨⟨1, 8⟩, 7, 2⟩, ⟨⟨2, 4⟩, 2, 1⟩, ⟨⟨2, 9⟩, 5, 0⟩]
      | _ => false) &&
      ((Red.root g).tokens.all fun t => !(t.kind == .STRING || t.kind == .ERROR)) &&
      ((Red.root g).tokens.all fun t => !(t.kind == .BLOCK_COMMENT) || !(decide (t.off < 18 ∧ 18 < t.stop)))) = true := by
    decide +kernel
  obtain ⟨g, e, d, h1, h2⟩ := ParseOut.of_test this
  simp only [Bool.and_eq_true, List.all_eq_true] at h2
  obtain ⟨⟨h2, h3⟩, h4⟩ := h2
  refine ⟨g, e, d, h1, ?_, ?_, by decide, ?_, ?_⟩
  · rintro ⟨a, b, h, _, hb⟩
    refine not_brokenEscape (t := b) (fun hm => ?_) hb
    have : '\\' ∈ t!"(module (func $f)\n  (func (;a\nb;) $g) (start $g))" := by rw [h]; simp [hm]
    revert this; decide +kernel
  · intro t ht _
    have := h3 t ht
    simp only [Bool.not_eq_true', Bool.or_eq_false_iff, beq_eq_false_iff_ne] at this
    exact ⟨this.1, this.2, fun _ => by decide⟩
  · intro t ht hk
    have := h4 t ht
    rw [hk] at this
    simp at this
    omega
  · split at h2
    · rename_i data hd
      exact ⟨data, hd, by simpa using h2⟩
    · cases h2

end Verif
