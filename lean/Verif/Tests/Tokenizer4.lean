import Verif.Props.Conservation

/-! Tests of `/repo/tests/test_tokenizer.py`, evaluated in the model. Written by `tools/gen_tests.py`. -/

namespace Tests
open Py Model

/-- `test_dots_split` -/
example : ∀ t ∈ [(c!"a new.Sentence", [c!"a", c!"new", c!".", c!"Sentence"]), (c!"December 4. Sentence", [c!"December", c!"4", c!".",
    c!"Sentence"]), (c!"try mindfulchef.com. And this.", [c!"try", c!"mindfulchef.com", c!".", c!"And", c!"this", c!"."]),
    (c!"a new. Sentence", [c!"a", c!"new", c!".", c!"Sentence"])],
    tokenize asciiDB t.1 = t.2 := by
  decide +kernel

/-- `test_single_quotes` -/
example : ∀ t ∈ [(c!"Deliver 4'4\"", [c!"Deliver", c!"4ft4in"]), (c!"'we will run items again'", [c!"'", c!"we", c!"will", c!"run", c!"items",
    c!"again", c!"'"]), (c!"ceo order 'macbook pro'", [c!"ceo", c!"order", c!"'", c!"macbook", c!"pro", c!"'"]),
    (c!"rock 'n' roll", [c!"rock", c!"'n'", c!"roll"])],
    tokenize asciiDB t.1 = t.2 := by
  decide +kernel

/-- `test_dots_nosplit` -/
example : ∀ t ∈ [(c!"market in 2015. includes", [c!"market", c!"in", c!"2015.", c!"includes"]), (c!"the 69th regt.,", [c!"the", c!"69th",
    c!"regt.", c!","]), (c!"the 69th regt.:", [c!"the", c!"69th", c!"regt.", c!":"]), (c!"the 69th regt.;", [c!"the", c!"69th",
    c!"regt.", c!";"])],
    tokenize asciiDB t.1 = t.2 := by
  decide +kernel

/-- `test_text_4` -/
example : ∀ t ∈ [(c!"\"I wrote, 'Making lemonade out of lemons.' \" The post marked the start.", [c!"\"", c!"I", c!"wrote", c!",", c!"'",
    c!"Making", c!"lemonade", c!"out", c!"of", c!"lemons", c!".", c!"'", c!"\"", c!"The", c!"post", c!"marked", c!"the",
    c!"start", c!"."])],
    tokenize asciiDB t.1 = t.2 := by
  decide +kernel

/-- `test_dots_nosplit` -/
example : ∀ t ∈ [(c!"the 69th regt.)", [c!"the", c!"69th", c!"regt", c!".", c!")"]), (c!"a srgt. (born)", [c!"a", c!"srgt", c!".", c!"(",
    c!"born", c!")"]), (c!"4. bought", [c!"4.", c!"bought"]), (c!"4. I bought", [c!"4", c!".", c!"I", c!"bought"])],
    tokenize asciiDB t.1 = t.2 := by
  decide +kernel

/-- `test_dots_split` -/
example : ∀ t ∈ [(c!"Fine Arts. She", [c!"Fine", c!"Arts", c!".", c!"She"]), (c!"in june 1962. Blabla", [c!"in", c!"june", c!"1962", c!".",
    c!"Blabla"]), (c!"information etc. SVN, NN", [c!"information", c!"etc", c!".", c!"SVN", c!",", c!"NN"])],
    tokenize asciiDB t.1 = t.2 := by
  decide +kernel

/-- `test_dots_nosplit` -/
example : ∀ t ∈ [(c!"a volume. ]", [c!"a", c!"volume", c!".", c!"]"]), (c!"a volume. {", [c!"a", c!"volume", c!".", c!"{"]), (c!"a volume. }",
    [c!"a", c!"volume", c!".", c!"}"]), (c!"a volume. |", [c!"a", c!"volume", c!".", c!"|"])],
    tokenize asciiDB t.1 = t.2 := by
  decide +kernel

/-- `test_lt_gt` -/
example : ∀ t ∈ [(c!"sell <-- 12", [c!"sell", c!"<--", c!"12"]), (c!"sell -> 12", [c!"sell", c!"->", c!"12"]), (c!"This is <me>", [c!"This",
    c!"is", c!"<", c!"me", c!">"]), (c!"Sell >50%", [c!"Sell", c!">", c!"50%"])],
    tokenize asciiDB t.1 = t.2 := by
  decide +kernel

/-- `test_multi_dots` -/
example : ∀ t ∈ [(c!"Ms. Dean.", [c!"Ms.", c!"Dean", c!"."]), (c!"Ms. Dean. Mrs Dean.", [c!"Ms.", c!"Dean", c!".", c!"Mrs", c!"Dean", c!"."]),
    (c!"Sgt. Pepp. went there", [c!"Sgt.", c!"Pepp.", c!"went", c!"there"])],
    tokenize asciiDB t.1 = t.2 := by
  decide +kernel

/-- `test_comas` -/
example : ∀ t ∈ [(c!"hello, hi", [c!"hello", c!",", c!"hi"]), (c!"123, all good", [c!"123", c!",", c!"all", c!"good"]), (c!"all good,123",
    [c!"all", c!"good", c!",", c!"123"]), (c!"123,123", [c!"123,123"])],
    tokenize asciiDB t.1 = t.2 := by
  decide +kernel

/-- `test_ampercases` -/
example : ∀ t ∈ [(c!"invest R &D", [c!"invest", c!"R&D"]), (c!"invest R& D", [c!"invest", c!"R&D"]), (c!"invest R & D", [c!"invest", c!"R&D"]),
    (c!"invest R &1", [c!"invest", c!"R", c!"&", c!"1"])],
    tokenize asciiDB t.1 = t.2 := by
  decide +kernel

/-- `test_colon` -/
example : ∀ t ∈ [(c!"Support:Revise", [c!"Support", c!":", c!"Revise"]), (c!"re:invent", [c!"re:invent"]), (c!"conduct 1:1s", [c!"conduct",
    c!"1:1s"]), (c!"ISO 123:123", [c!"ISO", c!"123:123"])],
    tokenize asciiDB t.1 = t.2 := by
  decide +kernel

/-- `test_multi_special_chars` -/
example : ∀ t ∈ [(c!"bla // bla", [c!"bla", c!"//", c!"bla"]), (c!"bla {{bla}}", [c!"bla", c!"{{", c!"bla", c!"}}"]), (c!"bla {{bla}}",
    [c!"bla", c!"{{", c!"bla", c!"}}"])],
    tokenize asciiDB t.1 = t.2 := by
  decide +kernel

/-- `test_ampercases` -/
example : ∀ t ∈ [(c!"new&old", [c!"new", c!"&", c!"old"]), (c!"New&Old", [c!"New", c!"&", c!"Old"]), (c!"NEW&OLD", [c!"NEW&OLD"]), (c!"t&cs",
    [c!"t&cs"])],
    tokenize asciiDB t.1 = t.2 := by
  decide +kernel

/-- `test_dots_single_tokens_nosplit` -/
example : ∀ t ∈ [(c!"deliveR.1", [c!"deliveR.1"]), (c!".deliver", [c!".deliver"]), (c!".Deliver", [c!".Deliver"]), (c!"aaa.deliver",
    [c!"aaa.deliver"])],
    tokenize asciiDB t.1 = t.2 := by
  decide +kernel

/-- `test_slashes` -/
example : ∀ t ∈ [(c!"me/ you", [c!"me", c!"/", c!"you"]), (c!"/external", [c!"/", c!"external"]), (c!"p/a", [c!"p/a"]), (c!"A/B", [c!"A/B"])],
    tokenize asciiDB t.1 = t.2 := by
  decide +kernel

/-- `test_multiple_dots_split` -/
example : ∀ t ∈ [(c!"a new... Sentence", [c!"a", c!"new", c!"...", c!"Sentence"]), (c!"bla...", [c!"bla", c!"..."])],
    tokenize asciiDB t.1 = t.2 := by
  decide +kernel

/-- `test_dots_single_tokens_nosplit` -/
example : ∀ t ∈ [(c!"a.", [c!"a."]), (c!".end", [c!".end"]), (c!".End", [c!".End"]), (c!"1.", [c!"1", c!"."])],
    tokenize asciiDB t.1 = t.2 := by
  decide +kernel

/-- `test_ampercases` -/
example : ∀ t ∈ [(c!"kitchen&utility", [c!"kitchen", c!"&", c!"utility"])],
    tokenize asciiDB t.1 = t.2 := by
  decide +kernel

/-- `test_arrows` -/
example : ∀ t ∈ [(c!" x < = 12.5", [c!"x", c!"<=", c!"12.5"])],
    tokenize asciiDB t.1 = t.2 := by
  decide +kernel

/-- `test_emdashes` -/
example : ∀ t ∈ [(c!"–this", [c!"-", c!"this"])],
    tokenize asciiDB t.1 = t.2 := by
  decide +kernel

end Tests
