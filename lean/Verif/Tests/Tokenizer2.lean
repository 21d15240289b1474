import Verif.Props.Conservation

/-! Tests of `/repo/tests/test_tokenizer.py`, evaluated in the model. Written by `tools/gen_tests.py`. -/

namespace Tests
open Py Model

/-- `test_sentence_parts` -/
example : ∀ t ∈ [(c!"on Oct. 29, 2017.", [c!"on", c!"Oct.", c!"29", c!",", c!"2017", c!"."]), (c!"involve the U.S.?", [c!"involve", c!"the",
    c!"U.S.", c!"?"]), (c!"\"Jump\", he said.", [c!"\"", c!"Jump", c!"\"", c!",", c!"he", c!"said", c!"."]),
    (c!"\"Jump.\", he said.", [c!"\"", c!"Jump", c!".", c!"\"", c!",", c!"he", c!"said", c!"."])],
    tokenize asciiDB t.1 = t.2 := by
  decide +kernel

/-- `test_plus` -/
example : ∀ t ∈ [(c!"responsibilities+timeline", [c!"responsibilities", c!"+", c!"timeline"]), (c!"hagen+greg+kris", [c!"hagen", c!"+",
    c!"greg", c!"+", c!"kris"]), (c!" LTED+Wifi+BLE+Secret ", [c!"LTED", c!"+", c!"Wifi", c!"+", c!"BLE", c!"+", c!"Secret"]),
    (c!"3+at", [c!"3+", c!"at"])],
    tokenize asciiDB t.1 = t.2 := by
  decide +kernel

/-- `test_non_ambiguous_seperators` -/
example : ∀ t ∈ [(c!"this [is] you", [c!"this", c!"[", c!"is", c!"]", c!"you"]), (c!"this (is) you", [c!"this", c!"(", c!"is", c!")",
    c!"you"]), (c!"this {is} you", [c!"this", c!"{", c!"is", c!"}", c!"you"]), (c!"this is you? omg", [c!"this", c!"is",
    c!"you", c!"?", c!"omg"])],
    tokenize asciiDB t.1 = t.2 := by
  decide +kernel

/-- `test_links` -/
example : ∀ t ∈ [(c!"sub.domain123.com.au", [c!"sub.domain123.com.au"]), (c!"data@unicef.org.au", [c!"data@unicef.org.au"]),
    (c!"mr.aid@unicef21.org.au", [c!"mr.aid@unicef21.org.au"]), (c!"tacos.pic.twitter.com/Q4usgzGMHq",
    [c!"tacos.pic.twitter.com/Q4usgzGMHq"])],
    tokenize asciiDB t.1 = t.2 := by
  decide +kernel

/-- `test_dots_nosplit` -/
example : ∀ t ∈ [(c!"(1. Todo Cambia)", [c!"(", c!"1", c!".", c!"Todo", c!"Cambia", c!")"]), (c!"(1. todo)", [c!"(", c!"1.", c!"todo", c!")"]),
    (c!"manuf. comm. strategies", [c!"manuf.", c!"comm.", c!"strategies"]), (c!"tech ASP .NET", [c!"tech", c!"ASP", c!".NET"])],
    tokenize asciiDB t.1 = t.2 := by
  decide +kernel

/-- `test_dots_nosplit` -/
example : ∀ t ∈ [(c!"a volume. '", [c!"a", c!"volume", c!".", c!"'"]), (c!"a volume. (", [c!"a", c!"volume", c!".", c!"("]), (c!"a volume. )",
    [c!"a", c!"volume", c!".", c!")"]), (c!"a volume. [", [c!"a", c!"volume", c!".", c!"["])],
    tokenize asciiDB t.1 = t.2 := by
  decide +kernel

/-- `test_dots_nosplit` -/
example : ∀ t ∈ [(c!"the min. is 3", [c!"the", c!"min.", c!"is", c!"3"]), (c!"the Bld. is", [c!"the", c!"Bld.", c!"is"]), (c!"the BLD. is",
    [c!"the", c!"BLD.", c!"is"]), (c!"he is dr. Robin", [c!"he", c!"is", c!"dr.", c!"Robin"])],
    tokenize asciiDB t.1 = t.2 := by
  decide +kernel

/-- `test_star` -/
example : ∀ t ∈ [(c!"discussion*integration", [c!"discussion", c!"*", c!"integration"]), (c!"discussion****integration", [c!"discussion",
    c!"*", c!"integration"]), (c!"123*123", [c!"123*123"]), (c!"123*abc", [c!"123*abc"])],
    tokenize asciiDB t.1 = t.2 := by
  decide +kernel

/-- `test_text_6` -/
example : ∀ t ∈ [(c!"I say, 'Why did I do that!' It keeps you inspired!", [c!"I", c!"say", c!",", c!"'", c!"Why", c!"did", c!"I", c!"do",
    c!"that", c!"!", c!"'", c!"It", c!"keeps", c!"you", c!"inspired", c!"!"])],
    tokenize asciiDB t.1 = t.2 := by
  decide +kernel

/-- `test_ampercases` -/
example : ∀ t ∈ [(c!"T&CS", [c!"T&CS"]), (c!"schedule& provide", [c!"schedule", c!"&", c!"provide"]), (c!"schedule& provide", [c!"schedule",
    c!"&", c!"provide"]), (c!"invest R&D", [c!"invest", c!"R&D"])],
    tokenize asciiDB t.1 = t.2 := by
  decide +kernel

/-- `test_clitics` -/
example : ∀ t ∈ [(c!"Jane's blob", [c!"Jane", c!"'s", c!"blob"]), (c!"sdo's", [c!"sdo", c!"'s"]), (c!"make SOP's today", [c!"make", c!"SOP",
    c!"'s", c!"today"]), (c!"I'd eat", [c!"I", c!"'d", c!"eat"])],
    tokenize asciiDB t.1 = t.2 := by
  decide +kernel

/-- `test_links` -/
example : ∀ t ∈ [(c!"domain.com", [c!"domain.com"]), (c!"Cellucor.com", [c!"Cellucor.com"]), (c!"DOMAIN.COM", [c!"DOMAIN.COM"]),
    (c!"sub.domain.com.au", [c!"sub.domain.com.au"])],
    tokenize asciiDB t.1 = t.2 := by
  decide +kernel

/-- `test_text_2` -/
example : ∀ t ∈ [(c!"headquarters in Ghent, Belgium. The company develops", [c!"headquarters", c!"in", c!"Ghent", c!",", c!"Belgium", c!".",
    c!"The", c!"company", c!"develops"])],
    tokenize asciiDB t.1 = t.2 := by
  decide +kernel

/-- `test_text_8` -/
example : ∀ t ∈ [(c!"They have become my online 'support' group.", [c!"They", c!"have", c!"become", c!"my", c!"online", c!"'", c!"support",
    c!"'", c!"group", c!"."])],
    tokenize asciiDB t.1 = t.2 := by
  decide +kernel

/-- `test_non_ambiguous_seperators` -/
example : ∀ t ∈ [(c!"sell <12", [c!"sell", c!"<", c!"12"]), (c!"ca=breakfast", [c!"ca", c!"=", c!"breakfast"]), (c!"targets=", [c!"targets",
    c!"="])],
    tokenize asciiDB t.1 = t.2 := by
  decide +kernel

/-- `test_dots_single_tokens_nosplit` -/
example : ∀ t ∈ [(c!"123.123.1", [c!"123.123.1"]), (c!"1.1.1.1", [c!"1.1.1.1"]), (c!"A.B.1.C", [c!"A.B.1.C"]), (c!"A.B.C", [c!"A.B.C"])],
    tokenize asciiDB t.1 = t.2 := by
  decide +kernel

/-- `test_dots_single_tokens_nosplit` -/
example : ∀ t ∈ [(c!"I1.I0I", [c!"I1.I0I"]), (c!"items.101", [c!"items.101"]), (c!"items.I0I.A", [c!"items.I0I.A"])],
    tokenize asciiDB t.1 = t.2 := by
  decide +kernel

/-- `test_dots_single_tokens_nosplit` -/
example : ∀ t ∈ [(c!"A.B.C.", [c!"A.B.C."]), (c!"e.g.", [c!"e.g."]), (c!"e.g", [c!"e.g"]), (c!"A.A", [c!"A.A"])],
    tokenize asciiDB t.1 = t.2 := by
  decide +kernel

/-- `test_plus` -/
example : ∀ t ∈ [(c!"312+at", [c!"312+", c!"at"]), (c!"aa+", [c!"aa+"])],
    tokenize asciiDB t.1 = t.2 := by
  decide +kernel

/-- `test_dots_nosplit` -/
example : ∀ t ∈ [(c!"a volume. *", [c!"a", c!"volume", c!".", c!"*"])],
    tokenize asciiDB t.1 = t.2 := by
  decide +kernel

/-- `test_smileys` -/
example : ∀ t ∈ [(c!":-)", [c!":-)"])],
    tokenize asciiDB t.1 = t.2 := by
  decide +kernel

end Tests
