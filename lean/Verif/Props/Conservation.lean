import Verif.Lemmas.Prose

/-! # Properties C70, C74 and C81: what the tokenizer does to a text -/

namespace Props
open Py Model

/-! ### C81: the text that is tokenized -/

/-- Sanitization before tokenizing: straight quotes, a hyphen between blanks for every run of dashes, single blanks. -/
theorem C81_sanitized (db : CharDB) (text : Str) : sanitize db tokSanitization text = Spec.tidy text := sanitize_tidy db text

example : Spec.tidy c!" “It’s”\t9–—12 ’ " = c!"\"It's\" 9 - 12 '" := by decide +kernel

/-- A text that meets the conditions of the theorems below: abbreviations, quotes, a dash, symbols and protected texts. -/
def ordinaryText : Str := c!"Mr. Ode can't — “a>=b”. rock 'n' roll :-) C. D & E"

theorem ordinaryText_ok : Spec.Ordinary ordinaryText where
  underscore := by decide +kernel
  names := by decide +kernel
  slash := by decide +kernel
  www w hw hi := by
    cases w with
    | nil => cases hw
    | cons c w =>
      simp only [List.map_cons, List.cons.injEq] at hw
      have : ∀ c ∈ ordinaryText, c.toLower ≠ 'w' := by decide +kernel
      exact this c (hi.subset (by simp)) hw.1

theorem ordinaryText_measure : ∀ w, Spec.Measure asciiDB.digit w → ¬ w <:+: ordinaryText := by
  rintro w ⟨d, v, q, rfl, hd, -, -⟩ hi
  have : ∀ c ∈ ordinaryText, asciiDB.digit c = false := by decide +kernel
  have := this d (hi.subset (by simp))
  rw [hd] at this
  cases this

/-! ### C74: nothing is lost

Full statement: for every text without underscores, digits next to quotes or star runs, the tokens together are the
sanitized text without its white space.  It is false of the code (`C74_conserves_false`, `C74_addresses_false`); it holds
for texts that in addition do not contain the names NSD, NSGE and NSLE, nor addresses (`Spec.Prose`). -/

/-- The name of a symbol between two symbols: characters are lost and others invented. -/
theorem C74_conserves_false : ∃ text : Str, '_' ∉ text ∧ (∀ c ∈ text, c.isDigit = false ∧ c ≠ '*') ∧
    (tokenize asciiDB text).flatten ≠ Spec.ink (Spec.tidy text) :=
  ⟨c!"a >=NSD<= b", by decide, by decide, by decide +kernel⟩

/-- Text protected twice. -/
theorem C74_addresses_false : ∃ text : Str, '_' ∉ text ∧ (∀ c ∈ text, c.isDigit = false ∧ c ≠ '*') ∧
    (tokenize asciiDB text).flatten ≠ Spec.ink (Spec.tidy text) :=
  ⟨c!"rock 'n' roll.com/a", by decide, by decide, by decide +kernel⟩

/-- No character is lost, invented or moved. -/
theorem C74_conserves_partial (db : CharDB) (text : Str) (h : Spec.Prose text)
    (hm : ∀ w, Spec.Measure db.digit w → ¬ w <:+: text) (hs : ¬ c!"**" <:+: text) :
    (tokenize db text).flatten = Spec.ink (Spec.tidy text) := by
  by_cases ht : text = []
  · subst ht
    rfl
  · obtain ⟨x, e, -, h3⟩ := tokenize_prose db ht h
    rw [e, splitWs_flatten, h3 hm hs]

example : (tokenize asciiDB ordinaryText).flatten = c!"Mr.Odecan't-\"a>=b\".rock'n'roll:-)C.D&E" := by
  rw [C74_conserves_partial asciiDB _ ordinaryText_ok.prose ordinaryText_measure (by decide +kernel)]
  decide +kernel

/-- A text with slashes that meets the conditions. -/
def slashText : Str := c!"Don't e-mail him/her 24/7, and/or ask Mr. Lee (am/pm is ok) :-)."

theorem slashText_ok : Spec.Prose slashText where
  underscore := by decide +kernel
  names := by decide +kernel
  slash _ := by decide +kernel
  www w hw hi := by
    cases w with
    | nil => cases hw
    | cons c w =>
      simp only [List.map_cons, List.cons.injEq] at hw
      have : ∀ c ∈ slashText, c.toLower ≠ 'w' := by decide +kernel
      exact this c (hi.subset (by simp)) hw.1

example : tokenize asciiDB slashText = [c!"Do", c!"n't", c!"e-mail", c!"him", c!"/", c!"her", c!"24/7", c!",", c!"and", c!"/",
    c!"or", c!"ask", c!"Mr.", c!"Lee", c!"(", c!"am", c!"/", c!"pm", c!"is", c!"ok", c!")", c!":-)", c!"."] := by
  decide +kernel

/-- Without these conditions characters are replaced: an address inside an address, an address that begins another one, and
an abbreviation between a dot and a slash. -/
theorem C74_slashes_false : (tokenize asciiDB c!"archive.org/www.a.b").flatten = c!"archive.org/_PROTECTED_1_" ∧
    tokenize asciiDB c!"www.a.b or www.a.b.d/c" = [c!"www.a.b", c!"or", c!"_PROTECTED_1_.d/c"] ∧
    tokenize asciiDB c!"a.b 'n c/d" = [c!"a.b_PROTECTED_1_c/d"] := by decide +kernel

/-! ### C70: no placeholder in a token -/

/-- Texts without underscores, without the names of symbols and without addresses: no token contains an underscore, so
none contains a placeholder. -/
theorem C70_no_placeholder_partial (db : CharDB) (text : Str) (h : Spec.Prose text) :
    ∀ w ∈ tokenize db text, '_' ∉ w := by
  by_cases ht : text = []
  · subst ht
    intro w hw
    rw [show tokenize db [] = [[]] from rfl, List.mem_singleton] at hw
    subst hw
    simp
  · obtain ⟨x, e, h2, -⟩ := tokenize_prose db ht h
    intro w hw hc
    rw [e] at hw
    exact h2 (splitWs_mem hw hc)

example : tokenize asciiDB ordinaryText = [c!"Mr.", c!"Ode", c!"ca", c!"n't", c!"-", c!"\"", c!"a", c!">=", c!"b", c!"\"",
    c!".", c!"rock", c!"'n'", c!"roll", c!":-)", c!"C.", c!"D&E"] := by decide +kernel

end Props
