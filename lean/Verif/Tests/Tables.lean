import Verif.Model.Testing

/-! Word tables and 1-grams for the tests of `/repo/tests`. Written by `tools/gen_tests.py`. -/

namespace Tests
open Py Model

/-- 1-grams with their counts and probabilities times 10^17. -/
def unigrams (rows : List (Str × Int × Nat)) : LM :=
  { maxOrder := 2
    details := rows.map fun r => (r.1, r.2.1, mkRat r.2.2 (10 ^ 17), ((mkRat r.2.2 (10 ^ 17) : ℚ) : WithBot ℚ))
    nextTokens := [] }

/-- The pipeline with the tables of irregular preterits, past participles, plurals, comparatives and superlatives, the nouns and the
adjectives. -/
def pipe (lm : LM) (preterits pps plurals comparatives superlatives : Dict Str Str) (nouns adjs : List Str) : Logic :=
  let lower : Str → Str := fun s => s.map Char.toLower
  ⟨lower, ⟨lower, lemmatizerPrefixes, lm, adjs, preterits, pps, plurals, comparatives, superlatives⟩, nouns, reverseDict pps⟩

end Tests
