import Verif.Lemmas.FormatComment
import Verif.Props.C06
/-!
C33: formatting a comment changes blanks only, keeps the delimiters, and formatting again changes nothing.
-/
namespace Verif
open Spec

/-- A line comment: formatting always succeeds; without the option it changes nothing; with the option it adds at most
one blank after the delimiter; the result is a line comment again, and formatting it again changes nothing. -/
theorem C33_line (o : FmtOpts) (t : Text) (h : TokenShape .LINE_COMMENT t) :
    ∃ r, formatLineComment o t = some r ∧ (o.formatComments = false → r = t) ∧
      (o.formatComments = true → LineFormatted t r) ∧ TokenShape .LINE_COMMENT r ∧
      formatLineComment o r = some r := by
  obtain ⟨c, rfl, hn, hr⟩ := h
  cases ho : o.formatComments with
  | false => exact ⟨_, by simp [formatLineComment, ho], fun _ => rfl, by simp, ⟨c, rfl, hn, hr⟩,
      by simp [formatLineComment, ho]⟩
  | true =>
    have hs : stripPrefix t!";;" (';' :: ';' :: c) = some c := stripPrefix_append t!";;" c
    by_cases hc : (c.isEmpty || startsBlank c) = true
    · have hf : formatLineComment o (';' :: ';' :: c) = some (';' :: ';' :: c) := by
        simp only [formatLineComment, ho, hs, hc, if_true, Option.map_some]
      refine ⟨_, hf, by simp, fun _ => ⟨c, [], rfl, rfl, .inl rfl, ?_⟩, ⟨c, rfl, hn, hr⟩, hf⟩
      rcases Bool.or_eq_true _ _ ▸ hc with hc | hc
      · exact .inl (by simpa using hc)
      · exact .inr (by simpa using (startsBlank_iff c).mp hc)
    · have hf : formatLineComment o (';' :: ';' :: c) = some (';' :: ';' :: ' ' :: c) := by
        simp only [formatLineComment, ho, hs, hc, if_true, Option.map_some]
        rfl
      have hs' : stripPrefix t!";;" (';' :: ';' :: ' ' :: c) = some (' ' :: c) := stripPrefix_append t!";;" (' ' :: c)
      refine ⟨_, hf, by simp, fun _ => ⟨c, [' '], rfl, rfl, .inr rfl, .inr ⟨' ', c, rfl, .inl rfl⟩⟩,
        ⟨' ' :: c, rfl, by simpa using hn, by simpa using hr⟩, ?_⟩
      simp [formatLineComment, ho, hs', startsBlank, isBlankTab]

/-- A block comment, in the same way; the blanks are added inside the delimiters, and the result is one well-nested
block comment again. -/
theorem C33_block (o : FmtOpts) (t : Text) (h : TokenShape .BLOCK_COMMENT t) :
    ∃ r, formatBlockComment o t = some r ∧ (o.formatComments = false → r = t) ∧
      (o.formatComments = true → BlockFormatted t r) ∧ TokenShape .BLOCK_COMMENT r ∧
      formatBlockComment o r = some r := by
  have hstrip : ∀ c : Text, (stripPrefix t!"(;" ('(' :: ';' :: (c ++ [';', ')']))).bind (stripSuffix t!";)") = some c := by
    intro c
    have : stripPrefix t!"(;" ('(' :: ';' :: (c ++ [';', ')'])) = some (c ++ [';', ')']) :=
      stripPrefix_append t!"(;" _
    rw [this]
    exact stripSuffix_append t!";)" c
  have hfix : ∀ c : Text, (c.isEmpty || startsBlank c && endsBlank c) = true →
      formatBlockComment o ('(' :: ';' :: (c ++ [';', ')'])) = some ('(' :: ';' :: (c ++ [';', ')'])) := by
    intro c hc
    simp only [formatBlockComment, hstrip, Option.map_some, hc, if_true]
    split <;> rfl
  cases ho : o.formatComments with
  | false => exact ⟨_, by simp [formatBlockComment, ho], fun _ => rfl, by simp, h,
      by simp [formatBlockComment, ho]⟩
  | true =>
    cases h with
    | mk t h =>
      obtain ⟨c, rfl, hb⟩ := commentRest_split h
      by_cases hc : (c.isEmpty || startsBlank c && endsBlank c) = true
      · refine ⟨_, hfix c hc, by simp, fun _ => ⟨c, [], [], rfl, by simp, .inl rfl, .inl rfl, ?_⟩,
          .mk _ h, hfix c hc⟩
        rcases Bool.or_eq_true _ _ ▸ hc with hc | hc
        · exact .inl (by simpa using hc)
        · obtain ⟨h1, h2⟩ := Bool.and_eq_true _ _ ▸ hc
          exact .inr ⟨by simpa using (startsBlank_iff c).mp h1, by simpa using (endsBlank_iff c).mp h2⟩
      · have key : ∀ b b' : Text, OneBlank b → OneBlank b' → startsBlank (b ++ c ++ b') = true →
            endsBlank (b ++ c ++ b') = true → CommentRest (b ++ c ++ b' ++ [';', ')']) →
            formatBlockComment o ('(' :: ';' :: (c ++ [';', ')'])) =
              some ('(' :: ';' :: (b ++ c ++ b' ++ [';', ')'])) →
            ∃ r, formatBlockComment o ('(' :: ';' :: (c ++ [';', ')'])) = some r ∧ (true = false → r = '(' :: ';' :: (c ++ [';', ')'])) ∧
              (true = true → BlockFormatted ('(' :: ';' :: (c ++ [';', ')'])) r) ∧ TokenShape .BLOCK_COMMENT r ∧
              formatBlockComment o r = some r := by
          intro b b' h1 h2 h3 h4 h5 h6
          exact ⟨_, h6, by simp, fun _ => ⟨c, b, b', rfl, rfl, h1, h2, .inr ⟨(startsBlank_iff _).mp h3, (endsBlank_iff _).mp h4⟩⟩,
            .mk _ h5, hfix _ (by rw [h3, h4]; simp)⟩
        have hcons : CommentRest (' ' :: (c ++ [' ', ';', ')'])) := commentRest_blank hb
        have hcons' : CommentRest (' ' :: (c ++ [';', ')'])) := commentRest_blank h
        have hne : c ≠ [] := by
          rintro rfl; exact hc rfl
        have hemp : c.isEmpty = false := by simpa using hne
        simp only [hemp, Bool.false_or] at hc
        cases hl : startsBlank c <;> cases ht : endsBlank c
        · refine key [' '] [' '] (.inr rfl) (.inr rfl) (by simp [startsBlank, isBlankTab])
            ((endsBlank_iff _).mpr ⟨' ', ' ' :: c, by simp, .inl rfl⟩) (by simpa using hcons) ?_
          simp only [formatBlockComment, ho, hstrip, Option.map_some, hemp, hl, ht]
          simp
        · refine key [' '] [] (.inr rfl) (.inl rfl) (by simp [startsBlank, isBlankTab]) ?_ (by simpa using hcons') ?_
          · obtain ⟨x, y, rfl, hx⟩ := (endsBlank_iff c).mp ht
            exact (endsBlank_iff _).mpr ⟨x, ' ' :: y, by simp, hx⟩
          · simp only [formatBlockComment, ho, hstrip, Option.map_some, hemp, hl, ht]
            simp
        · refine key [] [' '] (.inl rfl) (.inr rfl) ?_ ((endsBlank_iff _).mpr ⟨' ', c, by simp, .inl rfl⟩) (by simpa using hb) ?_
          · obtain ⟨x, y, rfl, hx⟩ := (startsBlank_iff c).mp hl
            exact (startsBlank_iff _).mpr ⟨x, y ++ [' '], by simp, hx⟩
          · simp only [formatBlockComment, ho, hstrip, Option.map_some, hemp, hl, ht]
            simp
        · exact absurd (by rw [hl, ht]; rfl) hc

/-- Every comment of every document: what C33 says, for the tokens a parse produces. -/
theorem C33_tokens (dbg : Bool) (src : Text) (g : Green) (errs : List Err) (dropped : Text)
    (h : parse dbg src = .tree g errs dropped) (o : FmtOpts) :
    (∀ t, (.LINE_COMMENT, t) ∈ g.toks → ∃ r, formatLineComment o t = some r ∧
      (o.formatComments = false → r = t) ∧ (o.formatComments = true → LineFormatted t r) ∧
      formatLineComment o r = some r) ∧
    (∀ t, (.BLOCK_COMMENT, t) ∈ g.toks → ∃ r, formatBlockComment o t = some r ∧
      (o.formatComments = false → r = t) ∧ (o.formatComments = true → BlockFormatted t r) ∧
      formatBlockComment o r = some r) := by
  have hs := C06_token_shapes dbg src g errs dropped h
  constructor
  · intro t ht
    obtain ⟨r, h1, h2, h3, _, h5⟩ := C33_line o t (hs _ ht)
    exact ⟨r, h1, h2, h3, h5⟩
  · intro t ht
    obtain ⟨r, h1, h2, h3, _, h5⟩ := C33_block o t (hs _ ht)
    exact ⟨r, h1, h2, h3, h5⟩

/-- Non-trivial case: a document with a line comment and a nested block comment without blanks inside; both get blanks,
and the text of the block comment's content is kept. -/
example : ∃ g e d, parse true t!"(module ;;a\n (;b (;c;);) )" = .tree g e d ∧
    (.LINE_COMMENT, t!";;a") ∈ g.toks ∧ (.BLOCK_COMMENT, t!"(;b (;c;);)") ∈ g.toks ∧
    formatLineComment { formatComments := true } t!";;a" = some t!";; a" ∧
    formatBlockComment { formatComments := true } t!"(;b (;c;);)" = some t!"(; b (;c;) ;)" := by
  have : (parse true t!"(module ;;a\n (;b (;c;);) )").test
      (fun t _ _ => t.toks.contains (.LINE_COMMENT, t!";;a") && t.toks.contains (.BLOCK_COMMENT, t!"(;b (;c;);)"))
      = true := by decide +kernel
  obtain ⟨t, e, d, h1, h2⟩ := ParseOut.of_test this
  simp only [Bool.and_eq_true, List.contains_iff_mem] at h2
  exact ⟨t, e, d, h1, h2.1, h2.2, by decide +kernel, by decide +kernel⟩

end Verif
