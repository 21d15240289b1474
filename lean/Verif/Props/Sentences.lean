import Verif.Lemmas.SentOrdinary
import Verif.Props.Preprocessing

/-! # Properties C71, C82 and C83: the sentencizer with the tokenizer of the package -/

namespace Props
open Py Model

/-- A text with quotes inside and outside of brackets, typographic quotes, a dash, a sentence that ends in a quote and a
line break. -/
def sentText : Str := c!"Mr. Ode said \"a (b\" c) — “d” (e \"f g.\" h)?\nrock 'n' roll, i>=j: \"k.\" L."

theorem sentText_ok : Spec.Ordinary sentText where
  underscore := by decide +kernel
  names := by decide +kernel
  slash := by decide +kernel
  www w hw hi := by
    cases w with
    | nil => cases hw
    | cons c w =>
      simp only [List.map_cons, List.cons.injEq] at hw
      have : ∀ c ∈ sentText, c.toLower ≠ 'w' := by decide +kernel
      exact this c (hi.subset (by simp)) hw.1

theorem sentText_measure : ∀ w, Spec.Measure asciiDB.digit w → ¬ w <:+: sentText := by
  rintro w ⟨d, v, q, rfl, hd, -, -⟩ hi
  have : ∀ c ∈ sentText, asciiDB.digit c = false := by decide +kernel
  have := this d (hi.subset (by simp))
  rw [hd] at this
  cases this

theorem sentText_marks : ∀ c ∈ ['༺', '༻', '⦅', '⦆'], c ∉ sentText := by decide +kernel

/-- A text with slashes inside and outside of brackets and quotes. -/
def slashSents : Str := c!"It's either/or (\"km/h and/or mph.\" or so) — “n/a”.\nhe/she, Mr. A."

theorem slashSents_ok : Spec.Writing slashSents where
  underscore := by decide +kernel
  names := by decide +kernel
  www w hw hi := by
    cases w with
    | nil => cases hw
    | cons c w =>
      simp only [List.map_cons, List.cons.injEq] at hw
      have : ∀ c ∈ slashSents, c.toLower ≠ 'w' := by decide +kernel
      exact this c (hi.subset (by simp)) hw.1
  slash _ := by
    refine ⟨by decide +kernel, fun u hu hi => ?_, fun w hw ⟨x, y, e, _, _⟩ => ?_⟩
    · obtain ⟨v, hv, p, q, e⟩ := infix_word (w := '.' :: (u ++ ['/'])) (by
        intro c hc
        simp only [List.mem_cons, List.mem_append, List.not_mem_nil, or_false] at hc
        rcases hc with rfl | hc | rfl
        · decide
        · exact hu c hc
        · decide) (by simp) _ slashSents (Nat.le_refl _) hi
      have : ∀ v ∈ splitWs slashSents, '/' ∉ v.dropWhile (· ≠ '.') := by decide +kernel
      exact this v hv (after_dot p (u ++ ['/'] ++ q) (by simp) (by rw [← e]; simp))
    · have : ∀ v ∈ [c!"'n'", c!"'n", c!"n'"], ¬ v <:+: slashSents.map fun c => (Spec.straight c).toLower := by decide +kernel
      exact this _ hw ⟨x.map fun c => (Spec.straight c).toLower, y.map fun c => (Spec.straight c).toLower, by rw [e]; simp⟩

theorem slashSents_measure : ∀ w, Spec.Measure asciiDB.digit w → ¬ w <:+: slashSents := by
  rintro w ⟨d, v, q, rfl, hd, -, -⟩ hi
  have : ∀ c ∈ slashSents, asciiDB.digit c = false := by decide +kernel
  have := this d (hi.subset (by simp))
  rw [hd] at this
  cases this

theorem clean_of {text : Str} (h : Spec.Writing text) (hm : ∀ c ∈ ['༺', '༻', '⦅', '⦆'], c ∉ text) : Clean text := by
  intro c hc
  rcases hd : isDelim c with _ | _
  · rfl
  · exfalso
    have : c ∈ ['_', '༺', '༻', '⦅', '⦆'] := isDelim_iff.mp hd
    rcases List.mem_cons.mp this with rfl | h'
    · exact h.underscore hc
    · exact hm c h' hc

/-! ### C71: no exception

Full statement: for every text the sentencizer returns.  False of the code (`C71_never_raises_false`,
`C71_plain_text_raises_false`); it holds for texts without the marker characters, without the tokenizer's own alphabet and
without addresses (slashes as in "and/or" are allowed). -/

/-- The sentencizer returns. -/
theorem C71_returns_partial (db : CharDB) (text : Str) (h : Spec.Writing text) (hm : ∀ c ∈ ['༺', '༻', '⦅', '⦆'], c ∉ text) :
    ∃ sents, sentencize db (tokenize db) text = .ok sents := by
  obtain ⟨r, h1, -⟩ := sentencize_writing db h (clean_of h hm)
  exact ⟨r, h1⟩

example : sentencize asciiDB (tokenize asciiDB) sentText = .ok [
    [c!"Mr.", c!"Ode", c!"said", c!"\"", c!"a", c!"(", c!"b", c!"\"", c!"c", c!")", c!"-", c!"\"", c!"d", c!"\"",
      c!"(", c!"e", c!"\"", c!"f", c!"g.", c!"\"", c!"¶", c!"h", c!")", c!"?"],
    [c!"rock", c!"'n'", c!"roll", c!",", c!"i", c!">=", c!"j", c!":"],
    [c!"\"", c!"k.", c!"\""],
    [c!"L."]] := by decide +kernel

example : sentencize asciiDB (tokenize asciiDB) slashSents = .ok [
    [c!"It", c!"'s", c!"either", c!"/", c!"or", c!"(", c!"\"", c!"km", c!"/", c!"h", c!"and", c!"/", c!"or", c!"mph",
      c!".", c!"\"", c!"¶", c!"or", c!"so", c!")", c!"-", c!"\"", c!"n/a", c!"\"", c!"."],
    [c!"he", c!"/", c!"she", c!",", c!"Mr.", c!"A."]] := by decide +kernel
example := C71_returns_partial asciiDB slashSents slashSents_ok (by decide +kernel)

/-! ### C83: nothing is lost between sentences

Full statement: for every text, the tokens of all sentences together are the sanitized text without its white space,
except for pilcrows.  The conditions are those of the tokenizer (C74) and of C71. -/

/-- No character is lost, invented or moved, except for pilcrows. -/
theorem C83_conserves_partial (db : CharDB) (text : Str) (h : Spec.Writing text)
    (hm : ∀ c ∈ ['༺', '༻', '⦅', '⦆'], c ∉ text) (hf : ∀ w, Spec.Measure db.digit w → ¬ w <:+: text)
    (hs : ¬ c!"**" <:+: text) : ∃ sents, sentencize db (tokenize db) text = .ok sents ∧
      sents.flatten.flatten.filter (fun c => c ≠ '¶') = (Spec.ink (Spec.tidy text)).filter (fun c => c ≠ '¶') := by
  obtain ⟨r, h1, h2⟩ := sentencize_writing db h (clean_of h hm)
  refine ⟨r, h1, ?_⟩
  rw [ink_tidy]
  exact (h2 ⟨hf, hs⟩).1

example : (Spec.ink (Spec.tidy sentText)).filter (fun c => c ≠ '¶') =
    c!"Mr.Odesaid\"a(b\"c)-\"d\"(e\"fg.\"h)?rock'n'roll,i>=j:\"k.\"L." ∧ ¬ c!"**" <:+: sentText := by decide +kernel
example := C83_conserves_partial asciiDB sentText sentText_ok.writing sentText_marks sentText_measure (by decide +kernel)
example := C83_conserves_partial asciiDB slashSents slashSents_ok (by decide +kernel) slashSents_measure (by decide +kernel)

/-- In general characters are lost: a measure is rewritten, and addresses next to quotes are put back wrongly. -/
theorem C83_conserves_false : ∃ text sents, (∀ c ∈ text, c.toNat < 128 ∧ c ≠ '_') ∧
    sentencize asciiDB (tokenize asciiDB) text = .ok sents ∧ sents.flatten.flatten ≠ Spec.ink (Spec.tidy text) :=
  ⟨c!"rock 'n' roll.com/a", [[c!"rock_PROTECTED_1_roll.com/a"]], by decide, by decide +kernel, by decide +kernel⟩

/-! ### C82: the sentence mark of the sentencizer

The sentencizer puts a pilcrow after `."`.  Full statement: a text without pilcrows has no token with a pilcrow.  False of
the code; it holds for texts without `."` (under the conditions of C83). -/

/-- The pilcrow sticks to the next word, or stays within a bracket. -/
theorem C82_pilcrow_false : ∃ text sents, '¶' ∉ text ∧ sentencize asciiDB (tokenize asciiDB) text = .ok sents ∧
    c!"¶Then" ∈ sents.flatten :=
  ⟨c!"\"No.\"Then we left", [[c!"\"", c!"No", c!".", c!"\"", c!"¶Then", c!"we", c!"left"]], by decide, by decide +kernel,
    by decide⟩

/-- Texts without `."`: no token has a pilcrow, and the tokens of all sentences are the whole text. -/
theorem C82_no_pilcrow_partial (db : CharDB) (text : Str) (h : Spec.Writing text)
    (hm : ∀ c ∈ ['༺', '༻', '⦅', '⦆'], c ∉ text) (hf : ∀ w, Spec.Measure db.digit w → ¬ w <:+: text)
    (hs : ¬ c!"**" <:+: text) (hp : '¶' ∉ text) (hd : ¬ c!".\"" <:+: text) :
    ∃ sents, sentencize db (tokenize db) text = .ok sents ∧ (∀ s ∈ sents, ∀ t ∈ s, '¶' ∉ t) ∧
      sents.flatten.flatten = Spec.ink (Spec.tidy text) := by
  obtain ⟨r, h1, h2⟩ := sentencize_writing db h (clean_of h hm)
  have h3 := (h2 ⟨hf, hs⟩).2.1 hd hp
  refine ⟨r, h1, ?_, by rw [ink_tidy]; exact h3⟩
  intro s hs t ht hc
  have hmem : '¶' ∈ r.flatten.flatten := List.mem_flatten.mpr ⟨t, List.mem_flatten.mpr ⟨s, hs, ht⟩, hc⟩
  rw [h3] at hmem
  rcases plainer_mem (List.mem_of_mem_filter hmem) with h | h
  · exact hp h
  · revert h; decide

/-- The conditions hold for the text above without its sentences in quotes. -/
def quietText : Str := c!"Mr. Ode said \"a (b\" c) — “d” (e \"f g\" h)?\nrock 'n' roll, i>=j: \"k\" L."

theorem quietText_ok : Spec.Ordinary quietText where
  underscore := by decide +kernel
  names := by decide +kernel
  slash := by decide +kernel
  www w hw hi := by
    cases w with
    | nil => cases hw
    | cons c w =>
      simp only [List.map_cons, List.cons.injEq] at hw
      have : ∀ c ∈ quietText, c.toLower ≠ 'w' := by decide +kernel
      exact this c (hi.subset (by simp)) hw.1

theorem quietText_measure : ∀ w, Spec.Measure asciiDB.digit w → ¬ w <:+: quietText := by
  rintro w ⟨d, v, q, rfl, hd, -, -⟩ hi
  have : ∀ c ∈ quietText, asciiDB.digit c = false := by decide +kernel
  have := this d (hi.subset (by simp))
  rw [hd] at this
  cases this

example := C82_no_pilcrow_partial asciiDB quietText quietText_ok.writing (by decide +kernel) quietText_measure (by decide +kernel)
  (by decide +kernel) (by decide +kernel)

end Props
