import Verif.Props.Conservation

/-! Tests of `/repo/tests/test_tokenizer.py`, evaluated in the model. Written by `tools/gen_tests.py`. -/

namespace Tests
open Py Model

/-- `test_single_quotes` -/
example : ∀ t ∈ [(c!"Rocco 's blob", [c!"Rocco", c!"'s", c!"blob"]), (c!"His name is 'Rob' bob", [c!"His", c!"name", c!"is", c!"'", c!"Rob",
    c!"'", c!"bob"]), (c!"His name is Rob 'bob'", [c!"His", c!"name", c!"is", c!"Rob", c!"'", c!"bob", c!"'"]),
    (c!"launch 'go live'strategy", [c!"launch", c!"'", c!"go", c!"live", c!"'", c!"strategy"])],
    tokenize asciiDB t.1 = t.2 := by
  decide +kernel

/-- `test_text_3` -/
example : ∀ t ∈ [(c!"The fastest in the world, by a long margin. Concentrate. Got a picture in mind?", [c!"The", c!"fastest", c!"in", c!"the",
    c!"world", c!",", c!"by", c!"a", c!"long", c!"margin", c!".", c!"Concentrate", c!".", c!"Got", c!"a", c!"picture", c!"in",
    c!"mind", c!"?"])],
    tokenize asciiDB t.1 = t.2 := by
  decide +kernel

/-- `test_text_5` -/
example : ∀ t ∈ [(c!"\"I wrote, \"Making lemonade out of lemons.\" \" The post marked the start.", [c!"\"", c!"I", c!"wrote", c!",", c!"\"",
    c!"Making", c!"lemonade", c!"out", c!"of", c!"lemons", c!".", c!"\"", c!"\"", c!"The", c!"post", c!"marked", c!"the",
    c!"start", c!"."])],
    tokenize asciiDB t.1 = t.2 := by
  decide +kernel

/-- `test_exclamation_points_split` -/
example : ∀ t ∈ [(c!"this is you! Omg", [c!"this", c!"is", c!"you", c!"!", c!"Omg"]), (c!"this is you!", [c!"this", c!"is", c!"you", c!"!"]),
    (c!"this is you!!!", [c!"this", c!"is", c!"you", c!"!!!"]), (c!"my man! - marcus", [c!"my", c!"man", c!"!", c!"-",
    c!"marcus"])],
    tokenize asciiDB t.1 = t.2 := by
  decide +kernel

/-- `test_dots_nosplit` -/
example : ∀ t ∈ [(c!"A. I bought", [c!"A.", c!"I", c!"bought"]), (c!"A. I bought A. I bought", [c!"A.", c!"I", c!"bought", c!"A.", c!"I",
    c!"bought"]), (c!"1.A. I bought", [c!"1.A.", c!"I", c!"bought"]), (c!"1.A I bought", [c!"1.A", c!"I", c!"bought"])],
    tokenize asciiDB t.1 = t.2 := by
  decide +kernel

/-- `test_colon` -/
example : ∀ t ∈ [(c!"example: bla", [c!"example", c!":", c!"bla"]), (c!"raise Q1: Raise 1$", [c!"raise", c!"Q1", c!":", c!"Raise", c!"1$"]),
    (c!"support:revise", [c!"support", c!":", c!"revise"]), (c!"payroll:hr", [c!"payroll", c!":", c!"hr"])],
    tokenize asciiDB t.1 = t.2 := by
  decide +kernel

/-- `test_non_ambiguous_seperators` -/
example : ∀ t ∈ [(c!"this is you???", [c!"this", c!"is", c!"you", c!"???"]), (c!"me\\you", [c!"me", c!"\\", c!"you"]), (c!"me|you", [c!"me",
    c!"|", c!"you"]), (c!"the \"cat\" jumps", [c!"the", c!"\"", c!"cat", c!"\"", c!"jumps"])],
    tokenize asciiDB t.1 = t.2 := by
  decide +kernel

/-- `test_ampercases` -/
example : ∀ t ∈ [(c!"R & D lab", [c!"R&D", c!"lab"]), (c!"invest R&D lab", [c!"invest", c!"R&D", c!"lab"]), (c!"invest R &D lab", [c!"invest",
    c!"R&D", c!"lab"]), (c!"invest R& D lab", [c!"invest", c!"R&D", c!"lab"])],
    tokenize asciiDB t.1 = t.2 := by
  decide +kernel

/-- `test_multiple_sentence_enders` -/
example : ∀ t ∈ [(c!"a new!!! Sentence", [c!"a", c!"new", c!"!!!", c!"Sentence"]), (c!"a new?? Sentence", [c!"a", c!"new", c!"??",
    c!"Sentence"]), (c!"a new??! Sentence", [c!"a", c!"new", c!"??!", c!"Sentence"])],
    tokenize asciiDB t.1 = t.2 := by
  decide +kernel

/-- `test_text_7` -/
example : ∀ t ∈ [(c!"I say, 'Why did I do that?' It keeps you inspired!", [c!"I", c!"say", c!",", c!"'", c!"Why", c!"did", c!"I", c!"do",
    c!"that", c!"?", c!"'", c!"It", c!"keeps", c!"you", c!"inspired", c!"!"])],
    tokenize asciiDB t.1 = t.2 := by
  decide +kernel

/-- `test_arrows` -/
example : ∀ t ∈ [(c!"Sell 12->23", [c!"Sell", c!"12->23"]), (c!"Sell 12>23", [c!"Sell", c!"12", c!">", c!"23"]), (c!"a = > b", [c!"a", c!"=>",
    c!"b"]), (c!" x > = 12.5", [c!"x", c!">=", c!"12.5"])],
    tokenize asciiDB t.1 = t.2 := by
  decide +kernel

/-- `test_ampercases` -/
example : ∀ t ∈ [(c!"invest R& DD", [c!"invest", c!"R", c!"&", c!"DD"]), (c!"R&D lab", [c!"R&D", c!"lab"]), (c!"R& D lab", [c!"R&D", c!"lab"]),
    (c!"R &D lab", [c!"R&D", c!"lab"])],
    tokenize asciiDB t.1 = t.2 := by
  decide +kernel

/-- `test_slashes` -/
example : ∀ t ∈ [(c!"10/10/2010", [c!"10/10/2010"]), (c!"b2b/b2c", [c!"b2b", c!"/", c!"b2c"]), (c!"me/you", [c!"me", c!"/", c!"you"]),
    (c!"me /you", [c!"me", c!"/", c!"you"])],
    tokenize asciiDB t.1 = t.2 := by
  decide +kernel

/-- `test_indirect_speech_blocks` -/
example : ∀ t ∈ [(c!"Well, he said ༺1༻", [c!"Well", c!",", c!"he", c!"said", c!"༺1༻"]), (c!"⦅1⦆ Well, he said ༺1༻", [c!"⦅1⦆", c!"Well", c!",",
    c!"he", c!"said", c!"༺1༻"])],
    tokenize asciiDB t.1 = t.2 := by
  decide +kernel

/-- `test_bullets` -/
example : ∀ t ∈ [(c!"year. *introduce", [c!"year", c!".", c!"*", c!"introduce"]), (c!"year. -introduce", [c!"year", c!".", c!"-",
    c!"introduce"])],
    tokenize asciiDB t.1 = t.2 := by
  decide +kernel

/-- `test_dots_single_tokens_nosplit` -/
example : ∀ t ∈ [(c!".11", [c!".11"]), (c!"1.deliver", [c!"1.deliver"]), (c!"1.Deliver", [c!"1.Deliver"]), (c!"deliver.1", [c!"deliver.1"])],
    tokenize asciiDB t.1 = t.2 := by
  decide +kernel

/-- `test_single_quotes` -/
example : ∀ t ∈ [(c!"rock 'n roll", [c!"rock", c!"'n", c!"roll"]), (c!"rock n' roll", [c!"rock", c!"n'", c!"roll"])],
    tokenize asciiDB t.1 = t.2 := by
  decide +kernel

/-- `test_colon` -/
example : ∀ t ∈ [(c!"2:HR", [c!"2", c!":", c!"HR"]), (c!"12243:engage", [c!"12243", c!":", c!"engage"])],
    tokenize asciiDB t.1 = t.2 := by
  decide +kernel

/-- `test_sentence_parts` -/
example : ∀ t ∈ [(c!"\"Jump.\" he said.", [c!"\"", c!"Jump", c!".", c!"\"", c!"he", c!"said", c!"."])],
    tokenize asciiDB t.1 = t.2 := by
  decide +kernel

/-- `test_slashes` -/
example : ∀ t ∈ [(c!"A/", [c!"A/"]), (c!"/B", [c!"/B"])],
    tokenize asciiDB t.1 = t.2 := by
  decide +kernel

end Tests
