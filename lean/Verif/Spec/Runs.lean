import Verif.Spec.Ngrams
import Verif.Spec.Paragraphs
import Verif.Spec.Preprocessing

/-! How often words come one after another in ordinary prose. -/

namespace Spec
open Py

/-- The words from position `i` of a sentence are `ws`, written in any case but as words that may occur in an n-gram. -/
def RunAt (ws s : List Str) (i : Nat) : Prop :=
  ((s.drop i).take ws.length).map (List.map Char.toLower) = ws ∧ ∀ t ∈ (s.drop i).take ws.length, PlainWord t

instance (ws s : List Str) (i : Nat) : Decidable (RunAt ws s i) := by unfold RunAt; infer_instance

/-- The number of positions of sentences where the words `ws` come one after another. -/
def runs (ws : List Str) (sents : List (List Str)) : Nat :=
  (sents.map fun s => ((List.range s.length).filter fun i => RunAt ws s i).length).sum

/-- A text whose lines consist of ordinary words, quotations and parentheses. -/
def ProseText (db : CharDB) (text : Str) (xss : List (List Chunk)) : Prop :=
  ∃ ls, Lines text ls ∧ List.Forall₂ (Paragraph db) ls xss

/-- The sentences of the lines. -/
def proseSentences (xss : List (List Chunk)) : List (List Str) :=
  xss.flatMap fun xs => (sentencesOf Chunk.ends xs).map fun s => s.flatMap Chunk.tokens

end Spec
