import Verif.Lemmas.SentOrdinary
import Verif.Lemmas.SentPlain
import Verif.Props.Sentences

/-! # Properties C71, C84 and C85: the sentencizer line by line -/

namespace Props
open Py Model

/-- A text of three lines with addresses, an abbreviation, measures and underscores. -/
def plainText : Str := c!"See www.a.org/b_c, No. 3!  \n\t Then 5' 3, a.b@c.com.\r\nEnd_"

theorem plainText_lines : Spec.Lines plainText [c!"See www.a.org/b_c, No. 3!", c!"Then 5' 3, a.b@c.com.", c!"End_"] :=
  .cut c!"See www.a.org/b_c, No. 3!" c!"  \n\t " c!"Then 5' 3, a.b@c.com.\r\nEnd_" _ (by decide) (by decide) (by decide)
    (by decide) (by decide)
    (.cut c!"Then 5' 3, a.b@c.com." c!"\r\n" c!"End_" _ (by decide) (by decide) (by decide) (by decide) (by decide)
      (.last c!"End_" (by decide)))

/-! ### C71: no exception

Full statement: for every text the sentencizer returns (see `C71_returns_partial`).  Here addresses and the alphabet of the
tokenizer are allowed; quotes and opening brackets are not. -/

/-- Texts without quotes, opening brackets and opening markers: the sentencizer returns. -/
theorem C71_no_blocks_partial (db : CharDB) (text : Str) (h : ∀ c ∈ ['"', '(', '༺', '⦅'], c ∉ text) :
    ∃ sents, sentencize db (tokenize db) text = .ok sents := ⟨_, sentencize_plain db h⟩

example := C71_no_blocks_partial asciiDB plainText (by decide)

/-! ### C84: lines

Full statement: for every text with the lines `ls`, the sentences of the text are those of its lines, one after the other.
False of the code for texts with marker characters.  It holds exactly for texts without quotes and brackets; for texts with
quotes and brackets, each line has its own sentences, which conserve it. -/

/-- A text has exactly one division into lines. -/
theorem C84_lines (text : Str) : ∃ ls, Spec.Lines text ls ∧ ∀ ls', Spec.Lines text ls' → ls' = ls :=
  ⟨_, newline_lines asciiDB text, fun _ h => lines_unique h (newline_lines asciiDB text)⟩

/-- A line that looks like a marker takes its text from another line; alone, the sentencizer raises on it. -/
theorem C84_marker_false : ∃ text l₁ l₂ sents, Spec.Lines text [l₁, l₂] ∧ sentencize asciiDB (tokenize asciiDB) text = .ok sents ∧
    sents = [[c!"\"", c!"a", c!"\""], [c!"\"", c!"a", c!"\""]] ∧
    ∃ e, sentencize asciiDB (tokenize asciiDB) l₂ = .error e :=
  ⟨c!"\"a\"\n༺0༻", c!"\"a\"", c!"༺0༻", [[c!"\"", c!"a", c!"\""], [c!"\"", c!"a", c!"\""]],
    .cut c!"\"a\"" c!"\n" c!"༺0༻" _ (by decide) (by decide) (by decide) (by decide) (by decide) (.last _ (by decide)),
    by decide +kernel, rfl, .index, by decide +kernel⟩

/-- Without marker characters in the text, the number of a quote may show up in a protected text, and this number counts the
quotes of the lines before. -/
theorem C84_numbers_false : ∃ text l₁ l₂ r₁ r₂ sents, (∀ c ∈ text, c.toNat < 128) ∧ Spec.Lines text [l₁, l₂] ∧
    sentencize asciiDB (tokenize asciiDB) l₁ = .ok r₁ ∧ sentencize asciiDB (tokenize asciiDB) l₂ = .ok r₂ ∧
    sentencize asciiDB (tokenize asciiDB) text = .ok sents ∧ sents ≠ r₁ ++ r₂ :=
  ⟨c!"\"x\"\na.b/c 'n' \"hi\"", c!"\"x\"", c!"a.b/c 'n' \"hi\"", [[c!"\"", c!"x", c!"\""]], [[c!"a.b/c_PROTECTED_1_༺0༻"]],
    [[c!"\"", c!"x", c!"\""], [c!"a.b/c_PROTECTED_1_༺1༻"]], by decide,
    .cut c!"\"x\"" c!"\n" c!"a.b/c 'n' \"hi\"" _ (by decide) (by decide) (by decide) (by decide) (by decide)
      (.last _ (by decide)),
    by decide +kernel, by decide +kernel, by decide +kernel, by decide⟩

/-- Texts without quotes and brackets: the sentences are those of the lines. -/
theorem C84_line_by_line_partial (db : CharDB) (text : Str) (ls : List Str) (hl : Spec.Lines text ls)
    (h : ∀ c ∈ ['"', '(', '༺', '⦅'], c ∉ text) :
    ∃ rs, List.Forall₂ (fun l r => sentencize db (tokenize db) l = .ok r) ls rs ∧
      sentencize db (tokenize db) text = .ok rs.flatten := by
  have e : reNewline.split db text = ls := lines_unique (newline_lines db text) hl
  refine ⟨ls.map fun l => splitSentences db (tokenize db (sanitize db sentSanitization l)), ?_, ?_⟩
  · refine forall₂_map_self fun l hm => ?_
    have hin : l <:+: text := (newline_split db text).1 l (by rw [e]; exact hm)
    rw [sentencize_plain db fun c hc hcl => h c hc (hin.subset hcl), split_line db hl l hm]
    simp
  · rw [sentencize_plain db h, e, List.flatMap_def]

example : sentencize asciiDB (tokenize asciiDB) plainText = .ok [
    [c!"See", c!"www.a.org/b_c,", c!"No.", c!"3", c!"!"],
    [c!"Then", c!"5ft", c!"3", c!",", c!"a.b@c.com", c!"."], [c!"End_"]] := by decide +kernel
example := C84_line_by_line_partial asciiDB plainText _ plainText_lines (by decide)

/-- Texts with quotes and brackets: every line has its own sentences, and they conserve it. -/
theorem C84_line_groups_partial (db : CharDB) (text : Str) (ls : List Str) (hl : Spec.Lines text ls) (h : Spec.Writing text)
    (hm : ∀ c ∈ ['༺', '༻', '⦅', '⦆'], c ∉ text) (hf : ∀ w, Spec.Measure db.digit w → ¬ w <:+: text)
    (hs : ¬ c!"**" <:+: text) : ∃ rs, sentencize db (tokenize db) text = .ok rs.flatten ∧
      List.Forall₂ (fun l r => r.flatten.flatten.filter (fun c => c ≠ '¶') =
        (Spec.ink (Spec.tidy l)).filter (fun c => c ≠ '¶')) ls rs := by
  obtain ⟨r, h1, h2⟩ := sentencize_writing db h (clean_of h hm)
  obtain ⟨gs, rfl, h3⟩ := (h2 ⟨hf, hs⟩).2.2
  rw [lines_unique (newline_lines db text) hl] at h3
  refine ⟨gs, h1, forall₂_imp_mem h3 fun l g _ hg => ?_⟩
  rw [ink_tidy]
  exact hg

theorem sentText_lines : Spec.Lines sentText [c!"Mr. Ode said \"a (b\" c) — “d” (e \"f g.\" h)?",
    c!"rock 'n' roll, i>=j: \"k.\" L."] :=
  .cut c!"Mr. Ode said \"a (b\" c) — “d” (e \"f g.\" h)?" c!"\n" c!"rock 'n' roll, i>=j: \"k.\" L." _ (by decide +kernel)
    (by decide +kernel) (by decide) (by decide) (by decide) (.last _ (by decide +kernel))
example := C84_line_groups_partial asciiDB sentText _ sentText_lines sentText_ok.writing sentText_marks sentText_measure
  (by decide +kernel)

/-! ### C85: sentences and tokens are not empty

Full statement: for every text, no sentence is empty, no token is empty, and no token has white space.  False of the code in
four ways. -/

/-- A line break at the end makes a sentence of one empty token. -/
theorem C85_last_line_false : sentencize asciiDB (tokenize asciiDB) c!"Hi.\n" = .ok [[c!"Hi", c!"."], [c!""]] := by decide +kernel

/-- An empty quote makes an empty token. -/
theorem C85_empty_quote_false : sentencize asciiDB (tokenize asciiDB) c!"I \"\"" = .ok [[c!"I", c!"\"", c!"", c!"\""]] := by
  decide +kernel

/-- Empty brackets make an empty token. -/
theorem C85_empty_bracket_false : sentencize asciiDB (tokenize asciiDB) c!"f()" = .ok [[c!"f", c!"(", c!"", c!")"]] := by
  decide +kernel

/-- A pilcrow after the end of a sentence makes an empty sentence. -/
theorem C85_pilcrow_false : sentencize asciiDB (tokenize asciiDB) c!"Hi. ¶ Bob" = .ok [[c!"Hi", c!"."], [], [c!"Bob"]] := by
  decide +kernel

/-- Whatever the sentencizer returns: if the text neither begins nor ends with white space and has no empty quotes or
brackets, tokens are not empty and without white space; without pilcrows, no sentence is empty. -/
theorem C85_tokens_partial (db : CharDB) (text : Str) (sents : List (List Str))
    (hr : sentencize db (tokenize db) text = .ok sents) (h1 : text.head?.any fun c => !isSpace c)
    (h2 : text.getLast?.any fun c => !isSpace c) (hq : ¬ c!"\"\"" <:+: text) (hb : ¬ c!"()" <:+: text) :
    (∀ s ∈ sents, ∀ t ∈ s, Spec.IsToken t) ∧ (¬ c!".\"" <:+: text → '¶' ∉ text → ∀ s ∈ sents, s ≠ []) :=
  sentencize_tokens db hr h1 h2 hq hb

example := C85_tokens_partial asciiDB c!"See (a \"b c\" ) www.a.org/b_c.\n\n༺0༻ \" d" [
    [c!"See", c!"(", c!"a", c!"\"", c!"b", c!"c", c!"\"", c!")", c!"www.a.org/b_c", c!"."],
    [c!"\"", c!"b", c!"c", c!"\"", c!"\"", c!"d"]]
  (by decide +kernel) (by decide) (by decide) (by decide) (by decide)

end Props
