import Verif.Props.Conservation

/-! Tests of `/repo/tests/test_tokenizer.py`, evaluated in the model. Written by `tools/gen_tests.py`. -/

namespace Tests
open Py Model

/-- `test_protected_patterns` -/
example : ∀ t ∈ [(c!"visit http://bla.com.au", [c!"visit", c!"http://bla.com.au"]), (c!"visit https://bla.com.au/", [c!"visit",
    c!"https://bla.com.au/"]), (c!"visit www.bla.com.au/bla.pdf", [c!"visit", c!"www.bla.com.au/bla.pdf"]),
    (c!"visit www.Bla.com and www.Bla2.com", [c!"visit", c!"www.Bla.com", c!"and", c!"www.Bla2.com"])],
    tokenize asciiDB t.1 = t.2 := by
  decide +kernel

/-- `test_dots_nosplit` -/
example : ∀ t ∈ [(c!"items is N. shore", [c!"items", c!"is", c!"N.", c!"shore"]), (c!"his name is A. Gray", [c!"his", c!"name", c!"is", c!"A.",
    c!"Gray"]), (c!"his name is a. gray", [c!"his", c!"name", c!"is", c!"a.", c!"gray"]), (c!"Engage U.S. donors", [c!"Engage",
    c!"U.S.", c!"donors"])],
    tokenize asciiDB t.1 = t.2 := by
  decide +kernel

/-- `test_clitics` -/
example : ∀ t ∈ [(c!"They aren't blobs", [c!"They", c!"are", c!"n't", c!"blobs"]), (c!"They can't blobs", [c!"They", c!"ca", c!"n't",
    c!"blobs"]), (c!"They haven't blobs", [c!"They", c!"have", c!"n't", c!"blobs"]), (c!"They isn't blobs", [c!"They", c!"is",
    c!"n't", c!"blobs"])],
    tokenize asciiDB t.1 = t.2 := by
  decide +kernel

/-- `test_ampercases` -/
example : ∀ t ∈ [(c!"invest R & D lab", [c!"invest", c!"R&D", c!"lab"]), (c!"invest A R & D lab", [c!"invest", c!"AR&D", c!"lab"]),
    (c!"invest R & D A lab", [c!"invest", c!"R&DA", c!"lab"]), (c!"invest RR & R2 A lab", [c!"invest", c!"RR", c!"&", c!"R2",
    c!"A", c!"lab"])],
    tokenize asciiDB t.1 = t.2 := by
  decide +kernel

/-- `test_dots_nosplit` -/
example : ∀ t ∈ [(c!"Dr. Robin", [c!"Dr.", c!"Robin"]), (c!"13th ed. New York", [c!"13th", c!"ed.", c!"New", c!"York"]),
    (c!"he is Sr. Programmer", [c!"he", c!"is", c!"Sr.", c!"Programmer"]), (c!"bullet 1. do this", [c!"bullet", c!"1.", c!"do",
    c!"this"])],
    tokenize asciiDB t.1 = t.2 := by
  decide +kernel

/-- `test_non_ambiguous_seperators` -/
example : ∀ t ∈ [(c!"the cat; jumps", [c!"the", c!"cat", c!";", c!"jumps"]), (c!"the cat: jumps", [c!"the", c!"cat", c!":", c!"jumps"]),
    (c!"failures :include", [c!"failures", c!":", c!"include"]), (c!"sell >12", [c!"sell", c!">", c!"12"])],
    tokenize asciiDB t.1 = t.2 := by
  decide +kernel

/-- `test_dots_nosplit` -/
example : ∀ t ∈ [(c!"bullet 01. do this", [c!"bullet", c!"01.", c!"do", c!"this"]), (c!"bullet.2 do this", [c!"bullet.2", c!"do", c!"this"]),
    (c!"of .20 inch", [c!"of", c!".20", c!"inch"]), (c!"a. b. (", [c!"a.", c!"b.", c!"("])],
    tokenize asciiDB t.1 = t.2 := by
  decide +kernel

/-- `test_clitics` -/
example : ∀ t ∈ [(c!"I'm blob", [c!"I", c!"'m", c!"blob"]), (c!"They'll come", [c!"They", c!"'ll", c!"come"]), (c!"They're blobs", [c!"They",
    c!"'re", c!"blobs"]), (c!"They've eaten", [c!"They", c!"'ve", c!"eaten"])],
    tokenize asciiDB t.1 = t.2 := by
  decide +kernel

/-- `test_dots_nosplit` -/
example : ∀ t ∈ [(c!"use .NET", [c!"use", c!".NET"]), (c!"a new.sentence", [c!"a", c!"new.sentence"]), (c!"a new .sentence", [c!"a", c!"new",
    c!".sentence"]), (c!"a new. sentence", [c!"a", c!"new.", c!"sentence"])],
    tokenize asciiDB t.1 = t.2 := by
  decide +kernel

/-- `test_dots_nosplit` -/
example : ∀ t ∈ [(c!"an n. g. :", [c!"an", c!"n.", c!"g.", c!":"]), (c!"in u.s. !", [c!"in", c!"u.s.", c!"!"]), (c!", vols. :", [c!",",
    c!"vols.", c!":"]), (c!"a volume. \"", [c!"a", c!"volume", c!".", c!"\""])],
    tokenize asciiDB t.1 = t.2 := by
  decide +kernel

/-- `test_text_1` -/
example : ∀ t ∈ [(c!"said Lt. Gov. Brian Calley in a Dec. 19 press release.", [c!"said", c!"Lt.", c!"Gov.", c!"Brian", c!"Calley", c!"in",
    c!"a", c!"Dec.", c!"19", c!"press", c!"release", c!"."])],
    tokenize asciiDB t.1 = t.2 := by
  decide +kernel

/-- `test_single_quotes` -/
example : ∀ t ∈ [(c!"james o'hare", [c!"james", c!"o'hare"]), (c!"'proposal", [c!"'", c!"proposal"]), (c!"Deliver 4'", [c!"Deliver", c!"4ft"]),
    (c!"Deliver 4\"", [c!"Deliver", c!"4in"])],
    tokenize asciiDB t.1 = t.2 := by
  decide +kernel

/-- `test_colon` -/
example : ∀ t ∈ [(c!"A:B", [c!"A:B"]), (c!"step:703", [c!"step", c!":", c!"703"]), (c!"Sell 12:", [c!"Sell", c!"12", c!":"]), (c!"Strategy:HR",
    [c!"Strategy", c!":", c!"HR"])],
    tokenize asciiDB t.1 = t.2 := by
  decide +kernel

/-- `test_split_special_words` -/
example : ∀ t ∈ [(c!"I cannot do that.", [c!"I", c!"can", c!"not", c!"do", c!"that", c!"."]), (c!"Cannot do that!", [c!"Can", c!"not", c!"do",
    c!"that", c!"!"])],
    tokenize asciiDB t.1 = t.2 := by
  decide +kernel

/-- `test_percentage` -/
example : ∀ t ∈ [(c!"%12", [c!"%12"]), (c!"12%", [c!"12%"]), (c!"%savings", [c!"%", c!"savings"]), (c!"save%savings", [c!"save", c!"%",
    c!"savings"])],
    tokenize asciiDB t.1 = t.2 := by
  decide +kernel

/-- `test_dots_single_tokens_nosplit` -/
example : ∀ t ∈ [(c!"aaA.Deliver", [c!"aaA.Deliver"]), (c!"$1.3M", [c!"$1.3M"]), (c!"1.1", [c!"1.1"]), (c!"123.123", [c!"123.123"])],
    tokenize asciiDB t.1 = t.2 := by
  decide +kernel

/-- `test_special_chars` -/
example : ∀ t ∈ [(c!"_tag #MenArePigs", [c!"_tag", c!"#MenArePigs"]), (c!"_tag @MenArePigs", [c!"_tag", c!"@MenArePigs"])],
    tokenize asciiDB t.1 = t.2 := by
  decide +kernel

/-- `test_dots_single_tokens_nosplit` -/
example : ∀ t ∈ [(c!"U.S.", [c!"U.S."]), (c!"u.s.", [c!"u.s."]), (c!"1.A", [c!"1.A"]), (c!"A.1", [c!"A.1"])],
    tokenize asciiDB t.1 = t.2 := by
  decide +kernel

/-- `test_exclamation_points_nosplit` -/
example : ∀ t ∈ [(c!"innovate! project", [c!"innovate", c!"!", c!"project"])],
    tokenize asciiDB t.1 = t.2 := by
  decide +kernel

/-- `test_lt_gt` -/
example : ∀ t ∈ [(c!"Sell <50%", [c!"Sell", c!"<", c!"50%"])],
    tokenize asciiDB t.1 = t.2 := by
  decide +kernel

/-- `test_clitics` -/
example : ∀ t ∈ [(c!"ifp's", [c!"ifp", c!"'s"])],
    tokenize asciiDB t.1 = t.2 := by
  decide +kernel

end Tests
