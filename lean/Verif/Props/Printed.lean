import Verif.Lemmas.PrintedText

/-! # Property C119: ordinary prose -/

namespace Props
open Py Model

/-- Ordinary prose is cut into its words, contractions, brackets, quotation marks and punctuation marks, in order. -/
theorem C119_prose (db : CharDB) (ps : List Spec.Piece) (h : ∀ p ∈ ps, p.Ordinary db)
    (hb : (ps.map Spec.Piece.text).IsChain (Spec.DotBefore db)) (text : Str) (hne : text ≠ [])
    (ht : splitWs text = ps.map Spec.Piece.text) : tokenize db text = ps.flatMap Spec.Piece.tokens :=
  tokenize_pieces h hb hne ht

/-- No character is lost, added or moved. -/
theorem C119_conserves (db : CharDB) (ps : List Spec.Piece) (h : ∀ p ∈ ps, p.Ordinary db)
    (hb : (ps.map Spec.Piece.text).IsChain (Spec.DotBefore db)) (text : Str) (hne : text ≠ [])
    (ht : splitWs text = ps.map Spec.Piece.text) : (tokenize db text).flatten = (splitWs text).flatten := by
  rw [tokenize_pieces h hb hne ht, ht]
  clear h hb ht hne
  have hs : ∀ s : Str, (Spec.Printed.singles s).flatten = s := by
    intro s
    induction s with
    | nil => rfl
    | cons c s ih =>
      show [c] ++ (Spec.Printed.singles s).flatten = _
      rw [ih]
      rfl
  have hc : ∀ s : Str, (Spec.splitCannot s).flatten = s := by
    intro s
    unfold Spec.splitCannot
    split <;> simp
  have hp : ∀ p : Spec.Printed, p.tokens.flatten = p.text := by
    intro p
    unfold Spec.Printed.tokens Spec.Printed.text
    simp only [List.flatten_append, hs, hc]
    congr 2
    split
    · rename_i e
      simp [e]
    · simp
  have hi : ∀ p : Spec.Piece, p.tokens.flatten = p.text := by
    intro p
    cases p with
    | word p => exact hp p
    | mark c => rfl
  induction ps with
  | nil => rfl
  | cons p ps ih => rw [List.flatMap_cons, List.flatten_append, hi, ih, List.map_cons, List.flatten_cons]

/-- He said, "They're (probably) late." ( We CANNOT wait! ) -/
def proseWords : List Spec.Piece := [
  .word ⟨[], c!"He", [], [], [], []⟩, .word ⟨[], c!"said", [], [], c!",", []⟩, .word ⟨c!"\"", c!"They", c!"'re", [], [], []⟩,
  .word ⟨c!"(", c!"probably", [], c!")", [], []⟩, .word ⟨[], c!"late", [], [], c!".", c!"\""⟩, .mark '(',
  .word ⟨[], c!"We", [], [], [], []⟩, .word ⟨[], c!"CANNOT", [], [], [], []⟩, .word ⟨[], c!"wait", [], [], c!"!", []⟩, .mark ')']

example : splitWs c!"He said, \"They're (probably) late.\"\n ( We CANNOT wait! )" = proseWords.map Spec.Piece.text := by
  decide +kernel

example : ∀ p ∈ proseWords, p.Ordinary asciiDB := by
  intro p hp
  simp only [proseWords, List.mem_cons, List.not_mem_nil, or_false] at hp
  rcases hp with rfl | rfl | rfl | rfl | rfl | rfl | rfl | rfl | rfl | rfl <;>
    first
    | exact ⟨by decide, by decide, by decide, by decide +kernel, by decide, by decide, by decide, by decide, by decide,
        by decide, by decide, by decide, fun _ c hc => by cases hc; decide +kernel, by decide, by decide +kernel⟩
    | (unfold Spec.Piece.Ordinary; decide)

example : (proseWords.map Spec.Piece.text).IsChain (Spec.DotBefore asciiDB) := by
  simp [proseWords, Spec.DotBefore, Spec.Piece.text, Spec.Printed.text]

example : proseWords.flatMap Spec.Piece.tokens = [c!"He", c!"said", c!",", c!"\"", c!"They", c!"'re", c!"(", c!"probably", c!")",
    c!"late", c!".", c!"\"", c!"(", c!"We", c!"CAN", c!"NOT", c!"wait", c!"!", c!")"] := by decide +kernel

example : tokenize asciiDB c!"He said, \"They're (probably) late.\"\n ( We CANNOT wait! )" =
    proseWords.flatMap Spec.Piece.tokens := by decide +kernel

/-! Why the words have to be ordinary: abbreviations keep their dot, and so does a word before a small letter or a digit; a
contraction of a number is read as feet; smileys and repeated brackets stay together. -/

example : tokenize asciiDB c!"So I'm. Go" = [c!"So", c!"I'm.", c!"Go"] := by decide +kernel
example : tokenize asciiDB c!"Ask Dr. Who" = [c!"Ask", c!"Dr.", c!"Who"] := by decide +kernel
example : tokenize asciiDB c!"Plan B. Go" = [c!"Plan", c!"B.", c!"Go"] := by decide +kernel
example : tokenize asciiDB c!"the end. of it" = [c!"the", c!"end.", c!"of", c!"it"] := by decide +kernel
example : tokenize asciiDB c!"in no. 5" = [c!"in", c!"no.", c!"5"] := by decide +kernel
example : tokenize asciiDB c!"the 90's" = [c!"the", c!"90fts"] := by decide +kernel
example : tokenize asciiDB c!"(yes;)" = [c!"(", c!"yes;)"] := by decide +kernel
example : tokenize asciiDB c!"((yes))" = [c!"((", c!"yes", c!"))"] := by decide +kernel
example : tokenize asciiDB c!"cannotn't" = [c!"cannot", c!"n't"] := by decide +kernel

end Props
