import Verif.Lemmas.Sentencizer

/-! # Properties C66–C73: sanitization, tokenizer, sentence splitting

`db : CharDB` is the part of the Unicode database that the patterns use; the theorems hold for every such database. -/

namespace Props
open Py Model

/-! ### C66: `sanitize` -/

/-- The result is trimmed and single-spaced, whatever the rules. -/
theorem C66_single_spaced (db : CharDB) (rules : List SubRule) (text : Str) :
    Spec.SingleSpaced (sanitize db rules text) :=
  singleSpaced_join _ (splitWs_noBlank _)

/-- Without rules, the words of the text stay the same. -/
theorem C66_words (db : CharDB) (text : Str) : splitWs (sanitize db [] text) = splitWs text := by
  rw [splitWs_sanitize]
  exact splitWs_strip text

/-- A sanitized text is not changed by sanitizing it again without rules. -/
theorem C66_idempotent (db : CharDB) (rules : List SubRule) (text : Str) :
    sanitize db [] (sanitize db rules text) = sanitize db rules text := by
  have : ∀ t, sanitize db [] t = join c!" " (splitWs t) := fun t => by
    show join c!" " (splitWs (Py.strip t)) = _
    rw [splitWs_strip]
  rw [this, splitWs_sanitize]
  rfl

/-- A text that is already trimmed and single-spaced is unchanged without rules. -/
theorem C66_fixed (db : CharDB) (ws : List Str) (h : ∀ w ∈ ws, Spec.IsToken w) :
    sanitize db [] (join c!" " ws) = join c!" " ws := by
  show join c!" " (splitWs (Py.strip (join c!" " ws))) = _
  rw [splitWs_strip, splitWs_join ws h]

example : sanitize asciiDB tokSanitization c!"  a\t‘b’ —\n c " = c!"a 'b' - c" := by decide +kernel
example : sanitize asciiDB [] c!" a \n b" = c!"a b" := by decide +kernel

/-! ### C67: tokens -/

theorem C67_tokens (db : CharDB) (text : Str) (h : text ≠ []) : ∀ w ∈ tokenize db text, Spec.IsToken w := by
  obtain ⟨p, -, -, e⟩ := tokenize_eq db h
  rw [e]
  exact splitWs_noBlank _

theorem C67_empty (db : CharDB) : tokenize db [] = [[]] := rfl

/-- The result for a text is never affected by more rounds of the protection loop than needed (see C68), so the
statement above is about the tokenizer itself. -/
example : tokenize asciiDB c!"He said, \"don't\"" = [c!"He", c!"said", c!",", c!"\"", c!"do", c!"n't", c!"\""] := by
  decide +kernel

/-! ### C68: termination -/

/-- The tokenizer stops on every text: with enough rounds for its loops there is a result, and the number of rounds does
not influence it. -/
theorem C68_terminates (db : CharDB) (text : Str) :
    ∃ n, ∀ fuel, n ≤ fuel → tokenizeFuel db fuel text = some (tokenize db text) := by
  by_cases h : text = []
  · subst h
    exact ⟨0, fun fuel _ => rfl⟩
  · obtain ⟨p, -, h2, -⟩ := tokenize_eq db h
    exact ⟨(sanitize db tokSanitization text).length + 1, fun fuel hf => h2 fuel hf⟩

/-- Each protection loop makes at most as many rounds as the text has apostrophes, dots and parentheses, and leaves a
text without any match of its pattern. -/
theorem C68_rounds (db : CharDB) (pat : Re) (h : pat ∈ tokProtect) (s : PState) : ∃ s',
    protectLoop db pat ((s.text.filter fun c => c ∈ ['\'', '.', '(', ')']).length + 1) s = some s' ∧
      pat.search db s'.text = none := by
  obtain ⟨s', -, h2, h3⟩ := protectLoop_some (db := db) h s
  refine ⟨s', h3 _ ?_, h2⟩
  have : (s.text.filter fun c => c ∈ ['\'', '.', '(', ')']).length = s.text.countP isProtChar := by
    rw [List.countP_eq_length_filter]
    congr 1
    apply List.filter_congr
    intro c _
    simp [isProtChar, Bool.or_assoc, Bool.beq_eq_decide_eq]
  omega

example : protectText asciiDB 9 c!"rock 'n' roll :-) www.a.b/c" =
    some ⟨[(c!"_PROTECTED_1_", c!" 'n' "), (c!"_PROTECTED_2_", c!"www.a.b/c"), (c!"_PROTECTED_3_", c!":-)")],
      c!"rock_PROTECTED_1_roll _PROTECTED_3_ _PROTECTED_2_", 4⟩ := by decide +kernel

/-! ### C69: plain words -/

/-- On a text of letters, digits and white space, tokenization is white space splitting, except that "cannot" (in any
case) is split. -/
theorem C69_plain_words (db : CharDB) (text : Str) (hne : text ≠ [])
    (h : ∀ c ∈ text, (db.word c = true ∧ c ≠ '_') ∨ isSpace c = true) :
    tokenize db text = (splitWs text).flatMap Spec.splitCannot :=
  tokenize_plain hne h

example : tokenize asciiDB c!" We  Cannot\tgo2 cannots CANNOT" =
    [c!"We", c!"Can", c!"not", c!"go2", c!"cannots", c!"CAN", c!"NOT"] := by decide +kernel
example : ∀ c ∈ c!" We  Cannot\tgo2 cannots CANNOT", (asciiDB.word c = true ∧ c ≠ '_') ∨ isSpace c = true := by
  decide +kernel

/-! ### C72: sentences -/

/-- Splitting at enders: the tokens are cut after every ender, and pilcrow marks are dropped. -/
theorem C72_parts (db : CharDB) (tokens : List Str) : ∃ (parts : List (List Str × Str)) (last : List Str),
    tokens = parts.flatMap (fun p => p.1 ++ [p.2]) ++ last ∧
    (∀ p ∈ parts, Spec.Ender p.2 ∧ ∀ t ∈ p.1, ¬ Spec.Ender t) ∧ (∀ t ∈ last, ¬ Spec.Ender t) ∧
    splitSentences db tokens =
      parts.map (fun p => if p.2 = c!"¶" then p.1 else p.1 ++ [p.2]) ++ (if last = [] then [] else [last]) := by
  obtain ⟨parts, last, h1, h2, h3, h4⟩ := splitSentencesAux_spec db tokens [] (by simp)
  exact ⟨parts, last, by simpa using h1, h2, h3, h4⟩

/-- No token is lost, added or moved, except the pilcrow marks. -/
theorem C72_conserves (db : CharDB) (tokens : List Str) :
    (splitSentences db tokens).flatten = tokens.filter (fun t => t ≠ c!"¶") := by
  obtain ⟨parts, last, h1, h2, h3, h4⟩ := C72_parts db tokens
  have hp : Spec.Ender c!"¶" := .inr rfl
  have hf : ∀ l : List Str, (∀ t ∈ l, ¬ Spec.Ender t) → l.filter (fun t => t ≠ c!"¶") = l := by
    intro l hl
    rw [List.filter_eq_self]
    intro t ht
    rw [decide_eq_true_eq]
    rintro rfl
    exact hl _ ht hp
  rw [h4, h1, List.filter_append, hf last h3, List.flatten_append]
  congr 1
  · clear h1 h4
    induction parts with
    | nil => rfl
    | cons p parts ih =>
      rw [List.map_cons, List.flatten_cons, List.flatMap_cons, List.filter_append, List.filter_append,
        ih fun q hq => h2 q (by simp [hq]), hf p.1 (h2 p (by simp)).2]
      congr 1
      by_cases hp2 : p.2 = c!"¶" <;> simp [hp2]
  · by_cases hl : last = [] <;> simp [hl]

/-- The enders are the runs of `.`, `?`, `!`, `:` and the pilcrow. -/
theorem C72_enders (db : CharDB) (t : Str) : isEnder db t = true ↔ Spec.Ender t := isEnder_iff db t

example : splitSentences asciiDB [c!"a", c!"?!", c!"b", c!"¶", c!"c"] = [[c!"a", c!"?!"], [c!"b"], [c!"c"]] := by
  decide +kernel
/-- Two pilcrows in a row, or one at the beginning, make an empty sentence. -/
example : splitSentences asciiDB [c!"¶", c!"a"] = [[], [c!"a"]] := by decide +kernel

/-! ### C73: blocks -/

/-- Quotes: the text is cut into pieces `before "inner"`; the inner texts (without quotes) are appended to the container
in order and each piece becomes its `before` and a marker with the number of the inner text.  The rest has no complete
quote. -/
theorem C73_quotes (db : CharDB) (text : Str) (ctr : List Str) (hnl : '\n' ∉ text) :
    ∃ (ms : List (Str × Str)) (last : Str), text = Spec.assembled '"' '"' ms last ∧
      (∀ m ∈ ms, '"' ∉ m.1 ∧ '"' ∉ m.2) ∧ (∀ a b, last = a ++ '"' :: b → '"' ∉ b) ∧
      (findBlocks db reQuote '༺' '༻' text ctr).2 = ctr ++ ms.map Prod.snd ∧
      splitWs (findBlocks db reQuote '༺' '༻' text ctr).1 = splitWs (Spec.marked '༺' '༻' natRepr ctr.length ms last) :=
  findBlocks_spec db rfl (by decide) text ctr hnl

/-- Brackets: likewise; a piece starts at the first opening bracket that is closed later and ends at the first closing
bracket after it. -/
theorem C73_brackets (db : CharDB) (text : Str) (ctr : List Str) (hnl : '\n' ∉ text) :
    ∃ (ms : List (Str × Str)) (last : Str), text = Spec.assembled '(' ')' ms last ∧
      (∀ m ∈ ms, '(' ∉ m.1 ∧ ')' ∉ m.2) ∧ (∀ a b, last = a ++ '(' :: b → ')' ∉ b) ∧
      (findBlocks db reBracket '⦅' '⦆' text ctr).2 = ctr ++ ms.map Prod.snd ∧
      splitWs (findBlocks db reBracket '⦅' '⦆' text ctr).1 = splitWs (Spec.marked '⦅' '⦆' natRepr ctr.length ms last) :=
  findBlocks_spec db rfl (by decide) text ctr hnl

/-- The marker numbers are decimal numbers of any length. -/
example : findBlocks asciiDB reQuote '༺' '༻' c!"a \"b c\"d \"\"" (List.replicate 9 []) =
    (c!"a ༺9༻ d ༺10༻ ", List.replicate 9 [] ++ [c!"b c", []]) := by decide +kernel
example : findBlocks asciiDB reBracket '⦅' '⦆' c!")(a(b)c)" [] = (c!") ⦅0⦆ c)", [c!"a(b"]) := by decide +kernel

/-! ### C70 and C71: the code violates them -/

/-- A protected text that contains the placeholder of an earlier one is put back with the placeholder inside. -/
theorem C70_placeholders_false : ∃ text : Str, '_' ∉ text ∧
    ∃ w ∈ tokenize asciiDB text, c!"_PROTECTED_1_" <:+: w :=
  ⟨c!"www.a.b/x 'n' y", by decide, c!"www.a.b/x_PROTECTED_1_y", by decide +kernel, c!"www.a.b/x", c!"y", rfl⟩

/-- Two placeholders around a name in capitals: the wrong one is recognized, and both leak. -/
theorem C70_symbols_false : ∃ text : Str, '_' ∉ text ∧ tokenize asciiDB text = [c!"a_NSGE.NSLE_b"] :=
  ⟨c!"a >=NSD<= b", by decide, by decide +kernel⟩

/-- A text with a marker character makes the sentencizer raise `ValueError`. -/
theorem C71_never_raises_false : ∃ text : Str, sentencize asciiDB (tokenize asciiDB) text = .error .value :=
  ⟨c!"༺", by decide +kernel⟩

/-- An ordinary text can do the same: the marker of a quote becomes part of a protected text. -/
theorem C71_plain_text_raises_false : ∃ text : Str, (∀ c ∈ text, c.toNat < 128) ∧
    sentencize asciiDB (tokenize asciiDB) text = .error .value :=
  ⟨c!"\"hi\" 'n' a.b/c", by decide, by decide +kernel⟩

end Props
