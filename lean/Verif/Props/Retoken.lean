import Verif.Lemmas.Retoken

/-! # Property C121: tokenizing tokens

Full claim: tokens that are joined by blanks and tokenized again stay the same,
`tokenize db (join c!" " (tokenize db text)) = tokenize db text`. -/

namespace Props
open Py Model

/-- Contracted verbs fall apart when they are tokenized a second time. -/
theorem C121_contractions_false : ¬ ∀ text, tokenize asciiDB (join c!" " (tokenize asciiDB text)) = tokenize asciiDB text := by
  intro h
  exact absurd (h c!"they're") (by decide +kernel)

/-- Ordinary prose without contractions. -/
theorem C121_stable_partial (db : CharDB) (ps : List Spec.Piece) (h : ∀ p ∈ ps, p.Ordinary db)
    (ht : ∀ p, .word p ∈ ps → p.tail = []) (hb : (ps.map Spec.Piece.text).IsChain (Spec.DotBefore db)) (hne : ps ≠ [])
    (text : Str) (hs : splitWs text = ps.map Spec.Piece.text) :
    tokenize db (join c!" " (tokenize db text)) = tokenize db text :=
  retokenize h ht hb hne hs

example : tokenize asciiDB c!"they're" = [c!"they", c!"'re"] := by decide +kernel
example : tokenize asciiDB c!"they 're" = [c!"they", c!"'", c!"re"] := by decide +kernel

/-- He said, "No (I CANNOT)." -/
def proseAgain : List Spec.Piece := [
  .word ⟨[], c!"He", [], [], [], []⟩, .word ⟨[], c!"said", [], [], c!",", []⟩, .word ⟨c!"\"", c!"No", [], [], [], []⟩,
  .word ⟨c!"(", c!"I", [], [], [], []⟩, .word ⟨[], c!"CANNOT", [], c!")", c!".", c!"\""⟩]

example : splitWs c!"He said,  \"No (I CANNOT).\"" = proseAgain.map Spec.Piece.text := by decide +kernel

example : ∀ p ∈ proseAgain, p.Ordinary asciiDB := by
  intro p hp
  simp only [proseAgain, List.mem_cons, List.not_mem_nil, or_false] at hp
  rcases hp with rfl | rfl | rfl | rfl | rfl <;>
    exact ⟨by decide, by decide, by decide, by decide +kernel, by decide, by decide, by decide, by decide, by decide,
      by decide, by decide, by decide, fun _ c hc => by cases hc; decide +kernel, by decide, by decide +kernel⟩

example : ∀ p, Spec.Piece.word p ∈ proseAgain → p.tail = [] := by
  intro p hp
  simp only [proseAgain, List.mem_cons, List.not_mem_nil, or_false, Spec.Piece.word.injEq] at hp
  rcases hp with rfl | rfl | rfl | rfl | rfl <;> rfl

example : (proseAgain.map Spec.Piece.text).IsChain (Spec.DotBefore asciiDB) := by
  simp [proseAgain, Spec.DotBefore, Spec.Piece.text, Spec.Printed.text]

example : tokenize asciiDB c!"He said , \" No ( I CAN NOT ) . \"" = tokenize asciiDB c!"He said,  \"No (I CANNOT).\"" := by
  decide +kernel

/-- A text of white space has no tokens, but no text has an empty one. -/
example : tokenize asciiDB c!" " = [] ∧ tokenize asciiDB [] = [[]] := by decide +kernel

end Props
