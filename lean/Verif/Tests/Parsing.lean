import Verif.Model.Testing

/-! The tests of `/repo/tests/test_labelled_data.py`, evaluated in the model; "minus infinity" is -1. Written by `tools/gen_tests.py`. -/

namespace Tests
open Py Model

/-- The transitions of the sentence of a sample. -/
def Steps (sample : List RawTuple) (expected : List (Nat × Nat × Trans)) : Prop :=
  (GoldSentence.read sample >>= fun g => g.sent.transitions 1000) = .ok (some expected)

instance (sample : List RawTuple) (expected : List (Nat × Nat × Trans)) : Decidable (Steps sample expected) := by
  unfold Steps; infer_instance

/-- `test_no_reduce` of `test_labelled_data.py` -/
example : Steps
    [(c!"France", c!"NOUN", c!"SUBJ", 2), (c!"has", c!"MAT", c!"AUX", 2), (c!"changed", c!"VERB", c!"ROOT", -1), (c!"its", c!"DET",
      c!"ART", 4), (c!"policy", c!"NOUN", c!"OBJ", 2), (c!"for", c!"PREP", c!"MARK", 7), (c!"the", c!"DET", c!"ART", 7),
      (c!"disadvantaged", c!"NOUN", c!"CPL", 4)]
    [(0, 1, .SHIFT), (1, 2, .LEFT), (0, 2, .LEFT), (2, 3, .SHIFT), (3, 4, .LEFT), (2, 4, .RIGHT), (4, 5, .SHIFT), (5, 6, .SHIFT),
      (6, 7, .LEFT), (5, 7, .LEFT), (4, 7, .RIGHT)] := by
  decide +kernel

/-- `test_reduce_1` of `test_labelled_data.py` -/
example : Steps
    [(c!"Japan", c!"NOUN", c!"SUBJ", 1), (c!"has", c!"VERB", c!"ROOT", -1), (c!"one", c!"DET", c!"ART", 4), (c!"of", c!"PREP",
      c!"MARK", 2), (c!"the", c!"DET", c!"ART", 6), (c!"lowest", c!"ADJ", c!"CPL", 6), (c!"rates", c!"NOUN", c!"OBJ", 1)]
    [(0, 1, .LEFT), (1, 2, .SHIFT), (2, 3, .RIGHT), (3, 4, .REDUCE), (2, 4, .LEFT), (1, 4, .SHIFT), (4, 5, .SHIFT), (5, 6, .LEFT),
      (4, 6, .LEFT), (1, 6, .RIGHT)] := by
  decide +kernel

/-- `test_reduce_2` of `test_labelled_data.py` -/
example : Steps
    [(c!"A", c!"DET", c!"ART", 1), (c!"pie", c!"NOUN", c!"SUBJ", 2), (c!"has", c!"VERB", c!"ROOT", -1), (c!"indeed", c!"ADV",
      c!"CPL", 2), (c!"apples", c!"NOUN", c!"OBJ", 2)]
    [(0, 1, .LEFT), (1, 2, .LEFT), (2, 3, .RIGHT), (3, 4, .REDUCE), (2, 4, .RIGHT)] := by
  decide +kernel

/-- `test_chain_reduce` of `test_labelled_data.py` -/
example : Steps
    [(c!"Lost", c!"PROPN", c!"SUBJ", 3), (c!"in", c!"PROPN", c!"FLAT", 0), (c!"Translation", c!"PROPN", c!"FLAT", 1), (c!"was",
      c!"VERB", c!"ROOT", -1), (c!"fun", c!"ADJ", c!"PROP", 3)]
    [(0, 1, .RIGHT), (1, 2, .RIGHT), (2, 3, .REDUCE), (1, 3, .REDUCE), (0, 3, .LEFT), (3, 4, .RIGHT)] := by
  decide +kernel

/-- `test_sentence_1` of `test_labelled_data.py` -/
example : Steps
    [(c!"In", c!"CONJ", c!"MARK", 4), (c!"addition", c!"CONJ", c!"CPL", 0), (c!"there", c!"THERE", c!"SUBJ", 4), (c!"will",
      c!"MAT", c!"AUX", 4), (c!"be", c!"VERB", c!"ROOT", -1), (c!"a", c!"DET", c!"ART", 10), (c!"6ft", c!"NUM", c!"CPL", 7),
      (c!"deep", c!"ADJ", c!"CPL", 10), (c!"two", c!"NUM", c!"ART", 9), (c!"story", c!"NOUN", c!"CPL", 10), (c!"porch",
      c!"NOUN", c!"EXIST", 4), (c!"across", c!"PREP", c!"MARK", 14), (c!"the", c!"DET", c!"ART", 14), (c!"entire", c!"ADJ",
      c!"CPL", 14), (c!"back", c!"NOUN", c!"CPL", 10), (c!"and", c!"CONJ", c!"NODEP", -1), (c!"30ft", c!"NUM", c!"CPL", 17),
      (c!"across", c!"PREP", c!"MARK", 19), (c!"the", c!"DET", c!"ART", 19), (c!"front", c!"NOUN", c!"CPL", 10), (c!".",
      c!"PUNCT", c!"NODEP", -1)]
    [(0, 1, .RIGHT), (1, 2, .SHIFT), (2, 3, .SHIFT), (3, 4, .LEFT), (2, 4, .LEFT), (1, 4, .REDUCE), (0, 4, .LEFT), (4, 5, .SHIFT),
      (5, 6, .SHIFT), (6, 7, .LEFT), (5, 7, .SHIFT), (7, 8, .SHIFT), (8, 9, .LEFT), (7, 9, .SHIFT), (9, 10, .LEFT), (7, 10,
      .LEFT), (5, 10, .LEFT), (4, 10, .RIGHT), (10, 11, .SHIFT), (11, 12, .SHIFT), (12, 13, .SHIFT), (13, 14, .LEFT), (12, 14,
      .LEFT), (11, 14, .LEFT), (10, 14, .RIGHT), (14, 16, .SHIFT), (16, 17, .LEFT), (14, 17, .SHIFT), (17, 18, .SHIFT), (18,
      19, .LEFT), (17, 19, .LEFT), (14, 19, .REDUCE), (10, 19, .RIGHT)] := by
  decide +kernel

/-- `test_arcs_are_crossing_true` of `test_labelled_data.py` -/
example : ∀ t ∈ ([((-1, 3), (2, 4)), ((1, 3), (2, 4)), ((4, 2), (3, 1))] : List ((Int × Int) × (Int × Int))),
    arcsAreCrossing t.1 t.2 = true := by
  decide +kernel

/-- `test_arcs_are_crossing_false` of `test_labelled_data.py` -/
example : ∀ t ∈ ([((1, 10), (2, 3)), ((2, 1), (4, 3)), ((1, 10), (2, 10))] : List ((Int × Int) × (Int × Int))),
    arcsAreCrossing t.1 t.2 = false := by
  decide +kernel

end Tests
