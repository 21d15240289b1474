import Verif.Tests.Tables

/-! The tests of `/repo/tests/test_lemmatizer.py`, `test_standardizer.py` and `test_inflector.py`, evaluated in the model. The word tables and the
1-grams are those of `/repo/scrappybara/data`, restricted to spellings close to the words of the tests. Written by `tools/gen_tests.py`. -/

namespace Tests
open Py Model

/-- The lemma of a word and, if given, the suffix found. -/
def Lemma (c : Logic) (t : Str × Tag × Str × Option (Option Suffix)) : Prop :=
  match c.lemmatizer.call t.1 t.2.1 with
  | .ok r => r.1 = t.2.2.1 ∧ (t.2.2.2 = none ∨ t.2.2.2 = some r.2)
  | .error _ => False

instance (c : Logic) (t : Str × Tag × Str × Option (Option Suffix)) : Decidable (Lemma c t) := by
  unfold Lemma; split <;> infer_instance

/-- `test_uppercase` of `test_lemmatizer.py`. -/
example : ∀ t ∈ [(c!"AM", .VERB, c!"be", none)], Lemma
    (pipe (unigrams [(c!"by", 3927, 496879028212569), (c!"be", 5363, 49211660941181), (c!"boy", 712, 28892007391274), (c!"bad", 352,
        25717061524101), (c!"bed", 614, 20954642723342), (c!"best", 413, 16509718509299), (c!"bees", 70, 9842332188236),
        (c!"bus", 178, 9207343014802), (c!"am", 413, 5397407974194), (c!"bay", 36, 3492440453890), (c!"boon", 2, 634989173435),
        (c!"bon", 1, 317494586717)])
        [(c!"was", c!"be"), (c!"were", c!"be")]
        [(c!"been", c!"be")]
        []
        [(c!"worse", c!"bad")]
        [(c!"best", c!"good"), (c!"worst", c!"bad")]
        [c!"bed", c!"boy", c!"bus"]
        [c!"bad"]) t := by
  decide +kernel

/-- `test_verb_be` of `test_lemmatizer.py`. -/
example : ∀ t ∈ [(c!"'m", .VERB, c!"be", some none), (c!"am", .VERB, c!"be", some none), (c!"'re", .VERB, c!"be", some none), (c!"are", .VERB,
    c!"be", some none), (c!"'s", .VERB, c!"be", some (some .THIRD_PERSON)), (c!"is", .VERB, c!"be", some (some .THIRD_PERSON))], Lemma
    (pipe (unigrams [(c!"by", 3927, 496879028212569), (c!"is", 7688, 444492421404215), (c!"i", 19918, 231771048303626), (c!"are", 3167,
        223516189048977), (c!"if", 3403, 132395242661113), (c!"be", 5363, 49211660941181), (c!"boy", 712, 28892007391274),
        (c!"bad", 352, 25717061524101), (c!"bed", 614, 20954642723342), (c!"best", 413, 16509718509299), (c!"bees", 70,
        9842332188236), (c!"bus", 178, 9207343014802), (c!"am", 413, 5397407974194), (c!"bay", 36, 3492440453890), (c!"boon",
        2, 634989173435), (c!"id", 2, 317494586717), (c!"bon", 1, 317494586717)])
        [(c!"was", c!"be"), (c!"were", c!"be")]
        [(c!"been", c!"be")]
        []
        [(c!"worse", c!"bad")]
        [(c!"best", c!"good"), (c!"worst", c!"bad")]
        [c!"bed", c!"boy", c!"bus"]
        [c!"bad"]) t := by
  decide +kernel

/-- `test_verb_format` of `test_lemmatizer.py`. -/
example : ∀ t ∈ [(c!"formatting", .VERB, c!"format", some (some .PROGRESSIVE)), (c!"formatted", .VERB, c!"format", some (some .PAST)),
    (c!"re-formatted", .VERB, c!"re-format", some (some .PAST)), (c!"reformatted", .VERB, c!"reformat", some (some .PAST)),
    (c!"formats", .VERB, c!"format", some (some .THIRD_PERSON))], Lemma
    (pipe (unigrams [(c!"formatted", 2, 634989173435), (c!"formats", 1, 317494586717), (c!"format", 2, 317494586717)])
        []
        []
        []
        []
        []
        []
        []) t := by
  decide +kernel

/-- `test_verb_picnic` of `test_lemmatizer.py`. -/
example : ∀ t ∈ [(c!"picnicking", .VERB, c!"picnic", some (some .PROGRESSIVE)), (c!"picnicked", .VERB, c!"picnic", some (some .PAST)),
    (c!"picnicks", .VERB, c!"picnic", some (some .THIRD_PERSON))], Lemma
    (pipe (unigrams [(c!"picnic", 24, 2539956693738), (c!"picnicked", 1, 317494586717), (c!"picnicking", 1, 317494586717)])
        []
        []
        []
        []
        []
        [c!"picnic"]
        []) t := by
  decide +kernel

/-- `test_verb_roll` of `test_lemmatizer.py`. -/
example : ∀ t ∈ [(c!"rolling", .VERB, c!"roll", some (some .PROGRESSIVE)), (c!"rolled", .VERB, c!"roll", some (some .PAST)), (c!"rolls", .VERB,
    c!"roll", some (some .THIRD_PERSON))], Lemma
    (pipe (unigrams [(c!"rolled", 102, 13017278055409), (c!"rolling", 56, 9524837601519), (c!"roll", 71, 8572353841367), (c!"rolls", 48,
        7937364667932), (c!"role", 73, 7619870081215), (c!"roles", 10, 2857451280456), (c!"roller", 10, 1904967520304),
        (c!"rollie", 2, 317494586717)])
        []
        []
        []
        []
        []
        [c!"role", c!"roller"]
        []) t := by
  decide +kernel

/-- `test_verb_bark` of `test_lemmatizer.py`. -/
example : ∀ t ∈ [(c!"barking", .VERB, c!"bark", some (some .PROGRESSIVE)), (c!"barked", .VERB, c!"bark", some (some .PAST)), (c!"barks", .VERB,
    c!"bark", some (some .THIRD_PERSON))], Lemma
    (pipe (unigrams [(c!"bark", 28, 5714902560911), (c!"barking", 32, 4444924214042), (c!"barked", 12, 1904967520304), (c!"barker", 1,
        317494586717)])
        []
        []
        []
        []
        []
        []
        []) t := by
  decide +kernel

/-- `test_verb_bake` of `test_lemmatizer.py`. -/
example : ∀ t ∈ [(c!"baking", .VERB, c!"bake", some (some .PROGRESSIVE)), (c!"baked", .VERB, c!"bake", some (some .PAST)), (c!"bakes", .VERB,
    c!"bake", some (some .THIRD_PERSON))], Lemma
    (pipe (unigrams [(c!"bake", 7, 1904967520304), (c!"baking", 8, 1904967520304), (c!"baked", 7, 1587472933586), (c!"baker", 2, 317494586717)])
        []
        []
        []
        []
        []
        []
        []) t := by
  decide +kernel

/-- `test_verb_free` of `test_lemmatizer.py`. -/
example : ∀ t ∈ [(c!"freeing", .VERB, c!"free", some (some .PROGRESSIVE)), (c!"freed", .VERB, c!"free", some (some .PAST)), (c!"frees", .VERB,
    c!"free", some (some .THIRD_PERSON))], Lemma
    (pipe (unigrams [(c!"free", 235, 29526996564709), (c!"freed", 13, 2222462107021), (c!"freer", 1, 317494586717), (c!"freest", 2, 317494586717),
        (c!"frees", 2, 317494586717)])
        []
        []
        []
        []
        []
        []
        [c!"free"]) t := by
  decide +kernel

/-- `test_verb_dye` of `test_lemmatizer.py`. -/
example : ∀ t ∈ [(c!"dyeing", .VERB, c!"dye", some (some .PROGRESSIVE)), (c!"dyed", .VERB, c!"dye", some (some .PAST)), (c!"dyes", .VERB,
    c!"dye", some (some .THIRD_PERSON))], Lemma
    (pipe (unigrams [(c!"dying", 70, 11429805121823), (c!"dyed", 14, 2857451280456), (c!"dye", 3, 952483760152), (c!"dyeing", 1, 317494586717),
        (c!"dyes", 1, 317494586717)])
        []
        []
        []
        []
        []
        []
        []) t := by
  decide +kernel

/-- `test_verb_party` of `test_lemmatizer.py`. -/
example : ∀ t ∈ [(c!"partying", .VERB, c!"party", some (some .PROGRESSIVE)), (c!"partied", .VERB, c!"party", some (some .PAST)), (c!"parties",
    .VERB, c!"party", some (some .THIRD_PERSON))], Lemma
    (pipe (unigrams [(c!"part", 545, 52069112221637), (c!"parts", 92, 19049675203038), (c!"party", 214, 16509718509299), (c!"parties", 73,
        13334772642126), (c!"parted", 23, 3809935040608), (c!"parting", 12, 2539956693738), (c!"partying", 2, 634989173435)])
        []
        []
        []
        []
        []
        [c!"part", c!"party"]
        []) t := by
  decide +kernel

/-- `test_verb_tiptoe` of `test_lemmatizer.py`. -/
example : ∀ t ∈ [(c!"tiptoeing", .VERB, c!"tiptoe", some (some .PROGRESSIVE)), (c!"tiptoed", .VERB, c!"tiptoe", some (some .PAST)),
    (c!"tiptoes", .VERB, c!"tiptoe", some (some .THIRD_PERSON))], Lemma
    (pipe (unigrams [(c!"tiptoe", 5, 952483760152), (c!"tiptoes", 1, 317494586717), (c!"tiptoed", 2, 317494586717)])
        []
        []
        []
        []
        []
        []
        []) t := by
  decide +kernel

/-- `test_verb_boycott` of `test_lemmatizer.py`. -/
example : ∀ t ∈ [(c!"boycotting", .VERB, c!"boycott", some (some .PROGRESSIVE)), (c!"boycotted", .VERB, c!"boycott", some (some .PAST)),
    (c!"boycotts", .VERB, c!"boycott", some (some .THIRD_PERSON))], Lemma
    (pipe (unigrams [(c!"boycott", 5, 952483760152), (c!"boycotts", 3, 634989173435), (c!"boycotted", 2, 317494586717), (c!"boycotting", 1,
        317494586717)])
        []
        []
        []
        []
        []
        []
        []) t := by
  decide +kernel

/-- `test_verb_break` of `test_lemmatizer.py`. -/
example : ∀ t ∈ [(c!"broke", .VERB, c!"break", some (some .PAST)), (c!"broken", .VERB, c!"break", some (some .PAST))], Lemma
    (pipe (unigrams [(c!"broke", 107, 17144707682734), (c!"break", 168, 13969761815561), (c!"broken", 130, 11429805121823), (c!"broker", 3,
        634989173435)])
        [(c!"broke", c!"break")]
        [(c!"broken", c!"break")]
        []
        []
        []
        [c!"break"]
        []) t := by
  decide +kernel

/-- `test_verb_need` of `test_lemmatizer.py`. -/
example : ∀ t ∈ [(c!"need", .VERB, c!"need", some none)], Lemma
    (pipe (unigrams [(c!"need", 560, 24764577763949), (c!"needed", 291, 21907126483493), (c!"neon", 13, 1904967520304), (c!"ne", 1, 317494586717)])
        []
        []
        []
        []
        []
        [c!"need", c!"neon"]
        []) t := by
  decide +kernel

/-- `test_adj_fat` of `test_lemmatizer.py`. -/
example : ∀ t ∈ [(c!"fattest", .ADJ, c!"fat", some (some .SUPERLATIVE)), (c!"fatter", .ADJ, c!"fat", some (some .COMPARATIVE))], Lemma
    (pipe (unigrams [(c!"fat", 107, 11112310535105), (c!"fate", 49, 7619870081215), (c!"fatter", 5, 1587472933586), (c!"fates", 2, 634989173435),
        (c!"fated", 3, 634989173435), (c!"fatty", 2, 634989173435), (c!"fattest", 1, 317494586717)])
        []
        []
        []
        []
        []
        [c!"fate"]
        [c!"fat"]) t := by
  decide +kernel

/-- `test_adj_tall` of `test_lemmatizer.py`. -/
example : ∀ t ∈ [(c!"tallest", .ADJ, c!"tall", some (some .SUPERLATIVE)), (c!"taller", .ADJ, c!"tall", some (some .COMPARATIVE))], Lemma
    (pipe (unigrams [(c!"tall", 204, 13652267228844), (c!"taller", 29, 4762418800759), (c!"tale", 32, 4127429627325), (c!"tales", 16,
        3492440453890), (c!"tally", 2, 634989173435), (c!"tallest", 11, 317494586717), (c!"tallied", 1, 317494586717)])
        []
        []
        []
        []
        []
        [c!"tale"]
        [c!"tall"]) t := by
  decide +kernel

/-- `test_adj_happy` of `test_lemmatizer.py`. -/
example : ∀ t ∈ [(c!"happiest", .ADJ, c!"happy", some (some .SUPERLATIVE)), (c!"happier", .ADJ, c!"happy", some (some .COMPARATIVE))], Lemma
    (pipe (unigrams [(c!"happy", 292, 22542115656928), (c!"happier", 21, 3809935040608), (c!"happiest", 6, 952483760152)])
        []
        []
        []
        []
        []
        []
        [c!"happy"]) t := by
  decide +kernel

/-- `test_adj_large` of `test_lemmatizer.py`. -/
example : ∀ t ∈ [(c!"largest", .ADJ, c!"large", some (some .SUPERLATIVE)), (c!"larger", .ADJ, c!"large", some (some .COMPARATIVE))], Lemma
    (pipe (unigrams [(c!"large", 306, 22859610243645), (c!"larger", 66, 9207343014802), (c!"largest", 54, 1904967520304)])
        []
        []
        []
        []
        []
        []
        [c!"large"]) t := by
  decide +kernel

/-- `test_adj_round` of `test_lemmatizer.py`. -/
example : ∀ t ∈ [(c!"roundest", .ADJ, c!"round", some (some .SUPERLATIVE)), (c!"rounder", .ADJ, c!"round", some (some .COMPARATIVE))], Lemma
    (pipe (unigrams [(c!"round", 136, 16827213096017), (c!"rounds", 26, 5714902560911), (c!"rounded", 10, 2222462107021), (c!"rounding", 8,
        1587472933586), (c!"rounder", 1, 317494586717)])
        []
        []
        []
        []
        []
        []
        []) t := by
  decide +kernel

/-- `test_adj_free` of `test_lemmatizer.py`. -/
example : ∀ t ∈ [(c!"freest", .ADJ, c!"free", some (some .SUPERLATIVE)), (c!"freer", .ADJ, c!"free", some (some .COMPARATIVE))], Lemma
    (pipe (unigrams [(c!"free", 235, 29526996564709), (c!"freed", 13, 2222462107021), (c!"freer", 1, 317494586717), (c!"freest", 2, 317494586717),
        (c!"frees", 2, 317494586717)])
        []
        []
        []
        []
        []
        []
        [c!"free"]) t := by
  decide +kernel

/-- `test_adj_bad` of `test_lemmatizer.py`. -/
example : ∀ t ∈ [(c!"worst", .ADJ, c!"bad", some (some .SUPERLATIVE)), (c!"worse", .ADJ, c!"bad", some (some .COMPARATIVE))], Lemma
    (pipe (unigrams [(c!"bad", 352, 25717061524101), (c!"worse", 151, 16827213096017), (c!"bay", 36, 3492440453890), (c!"worst", 82, 2857451280456)])
        []
        []
        []
        [(c!"worse", c!"bad")]
        [(c!"worst", c!"bad")]
        []
        [c!"bad"]) t := by
  decide +kernel

/-- `test_adj_sober` of `test_lemmatizer.py`. -/
example : ∀ t ∈ [(c!"sober", .ADJ, c!"sober", some none)], Lemma
    (pipe (unigrams [(c!"sober", 16, 4127429627325), (c!"sob", 6, 1269978346869), (c!"sobs", 5, 634989173435)])
        []
        []
        []
        []
        []
        []
        [c!"sober"]) t := by
  decide +kernel

/-- `test_noun_thief` of `test_lemmatizer.py`. -/
example : ∀ t ∈ [(c!"thieves", .NOUN, c!"thief", some (some .PLURAL))], Lemma
    (pipe (unigrams [(c!"the", 71875, 1271565819802772), (c!"this", 4304, 210816405580285), (c!"thing", 863, 63498917343459), (c!"thus", 32,
        4127429627325), (c!"thief", 24, 3492440453890), (c!"thieves", 12, 2222462107021), (c!"thieving", 3, 952483760152),
        (c!"thy", 1, 317494586717)])
        []
        []
        []
        []
        []
        [c!"thief", c!"thing"]
        []) t := by
  decide +kernel

/-- `test_noun_knife` of `test_lemmatizer.py`. -/
example : ∀ t ∈ [(c!"knives", .NOUN, c!"knife", some (some .PLURAL))], Lemma
    (pipe (unigrams [(c!"knife", 69, 6032397147629), (c!"knives", 14, 3174945867173), (c!"knifed", 5, 1269978346869), (c!"knifing", 1,
        317494586717)])
        []
        []
        []
        []
        []
        [c!"knife"]
        []) t := by
  decide +kernel

/-- `test_noun_hive` of `test_lemmatizer.py`. -/
example : ∀ t ∈ [(c!"hives", .NOUN, c!"hive", some (some .PLURAL))], Lemma
    (pipe (unigrams [(c!"his", 11456, 495291555278982), (c!"hid", 31, 4762418800759), (c!"hives", 31, 4762418800759), (c!"hive", 22,
        3809935040608), (c!"hi", 14, 1269978346869)])
        [(c!"hid", c!"hide")]
        []
        []
        []
        []
        [c!"hive"]
        []) t := by
  decide +kernel

/-- `test_noun_calf` of `test_lemmatizer.py`. -/
example : ∀ t ∈ [(c!"calves", .NOUN, c!"calf", some (some .PLURAL))], Lemma
    (pipe (unigrams [(c!"called", 890, 67308852384067), (c!"call", 472, 24764577763949), (c!"calls", 154, 19684664376472), (c!"calling", 161,
        16509718509299), (c!"calves", 17, 2857451280456), (c!"calf", 13, 2857451280456), (c!"caller", 6, 952483760152),
        (c!"calved", 1, 317494586717), (c!"callus", 1, 317494586717)])
        []
        []
        []
        []
        []
        [c!"calf", c!"call"]
        []) t := by
  decide +kernel

/-- `test_noun_berry` of `test_lemmatizer.py`. -/
example : ∀ t ∈ [(c!"berries", .NOUN, c!"berry", some (some .PLURAL))], Lemma
    (pipe (unigrams [(c!"berries", 34, 6349891734346), (c!"berry", 9, 1587472933586)])
        []
        []
        []
        []
        []
        [c!"berry"]
        []) t := by
  decide +kernel

/-- `test_noun_lie` of `test_lemmatizer.py`. -/
example : ∀ t ∈ [(c!"lies", .NOUN, c!"lie", some (some .PLURAL))], Lemma
    (pipe (unigrams [(c!"life", 1289, 68578830730936), (c!"live", 357, 20002158963190), (c!"led", 185, 18414686029603), (c!"lie", 111,
        11747299708540), (c!"lies", 60, 10159826774953), (c!"lied", 24, 3809935040608), (c!"lion", 45, 3174945867173),
        (c!"lid", 24, 2857451280456), (c!"ly", 8, 1904967520304), (c!"lest", 12, 1587472933586), (c!"les", 2, 317494586717),
        (c!"le", 1, 317494586717)])
        [(c!"led", c!"lead")]
        [(c!"led", c!"lead")]
        []
        []
        []
        [c!"lid", c!"lie", c!"life", c!"lion"]
        [c!"live"]) t := by
  decide +kernel

/-- `test_noun_fox` of `test_lemmatizer.py`. -/
example : ∀ t ∈ [(c!"foxes", .NOUN, c!"fox", some (some .PLURAL))], Lemma
    (pipe (unigrams [(c!"fox", 21, 2222462107021), (c!"foxes", 10, 1904967520304), (c!"foxed", 2, 634989173435), (c!"foxy", 1, 317494586717)])
        []
        []
        []
        []
        []
        [c!"fox"]
        []) t := by
  decide +kernel

/-- `test_noun_axe` of `test_lemmatizer.py`. -/
example : ∀ t ∈ [(c!"axes", .NOUN, c!"axe", some (some .PLURAL))], Lemma
    (pipe (unigrams [(c!"axe", 8, 952483760152), (c!"axis", 2, 634989173435)])
        []
        []
        []
        []
        []
        []
        []) t := by
  decide +kernel

/-- `test_noun_gamer` of `test_lemmatizer.py`. -/
example : ∀ t ∈ [(c!"gamers", .NOUN, c!"gamer", some (some .PLURAL))], Lemma
    (pipe (unigrams [(c!"game", 158, 18097191442886), (c!"games", 57, 8572353841367), (c!"gamer", 1, 317494586717), (c!"gamy", 1, 317494586717)])
        []
        []
        []
        []
        []
        [c!"game", c!"gamer"]
        []) t := by
  decide +kernel

/-- `test_noun_woman` of `test_lemmatizer.py`. -/
example : ∀ t ∈ [(c!"women", .NOUN, c!"woman", some (some .PLURAL))], Lemma
    (pipe (unigrams [(c!"woman", 1202, 46671704247443), (c!"women", 576, 45401725900573), (c!"wo", 191, 12382288881975), (c!"woes", 4,
        952483760152), (c!"wove", 6, 634989173435), (c!"woe", 3, 317494586717)])
        [(c!"wove", c!"weave")]
        []
        []
        []
        []
        [c!"wo", c!"woman"]
        []) t := by
  decide +kernel

/-- `test_noun_hero` of `test_lemmatizer.py`. -/
example : ∀ t ∈ [(c!"heroes", .NOUN, c!"hero", some (some .PLURAL))], Lemma
    (pipe (unigrams [(c!"her", 13566, 582602566626239), (c!"here", 1196, 112393083697923), (c!"hers", 94, 13652267228844), (c!"hero", 31,
        3809935040608), (c!"herd", 29, 2857451280456), (c!"heroes", 13, 1904967520304), (c!"heroic", 8, 1587472933586),
        (c!"heron", 3, 952483760152)])
        []
        []
        []
        []
        []
        [c!"herd", c!"hero"]
        [c!"heroic"]) t := by
  decide +kernel

/-- `test_noun_child` of `test_lemmatizer.py`. -/
example : ∀ t ∈ [(c!"children", .NOUN, c!"child", some (some .PLURAL)), (c!"grand-children", .NOUN, c!"grand-child", some (some .PLURAL)),
    (c!"grandchildren", .NOUN, c!"grandchild", some (some .PLURAL))], Lemma
    (pipe (unigrams [(c!"children", 690, 40639307099814), (c!"child", 585, 31114469498295), (c!"grandchildren", 23, 3809935040608), (c!"chilled",
        11, 3174945867173), (c!"chill", 23, 2857451280456), (c!"chilly", 21, 1904967520304), (c!"chills", 5, 952483760152),
        (c!"chilling", 3, 634989173435), (c!"grandchild", 1, 317494586717), (c!"chilies", 1, 317494586717), (c!"chile", 1,
        317494586717)])
        []
        []
        [(c!"children", c!"child")]
        []
        []
        [c!"child", c!"grandchild"]
        [c!"chilly"]) t := by
  decide +kernel

/-- `test_noun_acumen` of `test_lemmatizer.py`. -/
example : ∀ t ∈ [(c!"acumen", .NOUN, c!"acumen", some none)], Lemma
    (pipe (unigrams [(c!"acumen", 1, 317494586717)])
        []
        []
        []
        []
        []
        []
        []) t := by
  decide +kernel

/-- `test_noun_criterion` of `test_lemmatizer.py`. -/
example : ∀ t ∈ [(c!"criteria", .NOUN, c!"criterion", some (some .PLURAL)), (c!"sub-criteria", .NOUN, c!"sub-criterion", some (some .PLURAL)),
    (c!"subcriteria", .NOUN, c!"subcriterion", some (some .PLURAL))], Lemma
    (pipe (unigrams [(c!"criteria", 2, 634989173435), (c!"criterion", 1, 317494586717)])
        []
        []
        []
        []
        []
        []
        []) t := by
  decide +kernel

/-- `test_noun_phenomenon` of `test_lemmatizer.py`. -/
example : ∀ t ∈ [(c!"phenomena", .NOUN, c!"phenomenon", some (some .PLURAL))], Lemma
    (pipe (unigrams [(c!"phenomenon", 22, 4444924214042), (c!"phenomena", 6, 1587472933586)])
        []
        []
        []
        []
        []
        [c!"phenomenon"]
        []) t := by
  decide +kernel

/-- `test_noun_analysis` of `test_lemmatizer.py`. -/
example : ∀ t ∈ [(c!"analyses", .NOUN, c!"analysis", some (some .PLURAL))], Lemma
    (pipe (unigrams [(c!"analysis", 32, 5714902560911), (c!"analyzed", 8, 1587472933586), (c!"analyze", 7, 1269978346869), (c!"analyses", 4,
        952483760152), (c!"analyzing", 4, 952483760152), (c!"analyzes", 1, 317494586717)])
        []
        []
        []
        []
        []
        []
        []) t := by
  decide +kernel

/-- `test_noun_fungus` of `test_lemmatizer.py`. -/
example : ∀ t ∈ [(c!"fungi", .NOUN, c!"fungus", some (some .PLURAL))], Lemma
    (pipe (unigrams [(c!"fungus", 13, 2222462107021), (c!"fungi", 6, 1587472933586)])
        []
        []
        []
        []
        []
        []
        []) t := by
  decide +kernel

/-- `test_noun_business` of `test_lemmatizer.py`. -/
example : ∀ t ∈ [(c!"business", .NOUN, c!"business", some none)], Lemma
    (pipe (unigrams [(c!"business", 242, 29526996564709), (c!"businesses", 12, 3174945867173)])
        []
        []
        []
        []
        []
        [c!"business"]
        []) t := by
  decide +kernel

/-- `test_noun_caucus` of `test_lemmatizer.py`. -/
example : ∀ t ∈ [(c!"caucus", .NOUN, c!"caucus", some none)], Lemma
    (pipe (unigrams [(c!"caucuses", 2, 317494586717), (c!"caucus", 1, 317494586717)])
        []
        []
        []
        []
        []
        [c!"caucus"]
        []) t := by
  decide +kernel

/-- `test_noun_metamorphosis` of `test_lemmatizer.py`. -/
example : ∀ t ∈ [(c!"metamorphosis", .NOUN, c!"metamorphosis", some none)], Lemma
    (pipe (unigrams [(c!"metamorphosis", 2, 634989173435)])
        []
        []
        []
        []
        []
        [c!"metamorphosis"]
        []) t := by
  decide +kernel

/-- `test_pron_us` of `test_lemmatizer.py`. -/
example : ∀ t ∈ [(c!"'s", .NOUN, c!"we", some none), (c!"'s", .PRON, c!"we", some none)], Lemma
    (pipe (unigrams [(c!"was", 21504, 628639281700247), (c!"we", 3216, 119060470018986), (c!"way", 1874, 66038874037198), (c!"woman", 1202,
        46671704247443), (c!"wo", 191, 12382288881975), (c!"wave", 95, 10477321361671), (c!"won", 82, 9524837601519),
        (c!"west", 41, 6984880907781), (c!"weed", 17, 4127429627325), (c!"wing", 23, 3492440453890), (c!"woes", 4,
        952483760152), (c!"wove", 6, 634989173435), (c!"wad", 5, 634989173435), (c!"woe", 3, 317494586717)])
        [(c!"was", c!"be"), (c!"won", c!"win"), (c!"wove", c!"weave")]
        [(c!"won", c!"win")]
        []
        []
        []
        [c!"wave", c!"way", c!"west", c!"wing", c!"wo", c!"woman"]
        []) t := by
  decide +kernel

/-- `test_ending_our` of `test_standardizer.py`. -/
example : ∀ t ∈ [(c!"colour", c!"color"), (c!"colouring", c!"coloring"), (c!"coloured", c!"colored"), (c!"colours", c!"colors")],
    standardize (pipe (unigrams [(c!"color", 176, 22224621070211), (c!"colors", 60, 10477321361671), (c!"colored", 63, 6984880907781), (c!"lore", 6,
        1904967520304), (c!"coloring", 10, 1904967520304), (c!"lord", 8, 1904967520304)])
        []
        []
        []
        []
        []
        [c!"color"]
        []).lemmatizer.lm t.1 = .ok t.2 := by
  decide +kernel

/-- `test_ending_ise` of `test_standardizer.py`. -/
example : ∀ t ∈ [(c!"realise", c!"realize"), (c!"realisations", c!"realizations"), (c!"realisation", c!"realization"), (c!"realisers",
    c!"realizers"), (c!"realiser", c!"realizer"), (c!"realising", c!"realizing"), (c!"realised", c!"realized"), (c!"realises",
    c!"realizes")],
    standardize (pipe (unigrams [(c!"realized", 198, 10477321361671), (c!"realize", 99, 6984880907781), (c!"realizing", 25, 3174945867173), (c!"realization",
        15, 2857451280456), (c!"realizes", 22, 2222462107021), (c!"realise", 1, 317494586717), (c!"realised", 1, 317494586717)])
        []
        []
        []
        []
        []
        []
        []).lemmatizer.lm t.1 = .ok t.2 := by
  decide +kernel

/-- `test_ending_yse` of `test_standardizer.py`. -/
example : ∀ t ∈ [(c!"analyses", c!"analyzes")],
    standardize (pipe (unigrams [(c!"analysis", 32, 5714902560911), (c!"analyzed", 8, 1587472933586), (c!"analyze", 7, 1269978346869), (c!"analyses", 4,
        952483760152), (c!"analyzing", 4, 952483760152), (c!"analyzes", 1, 317494586717)])
        []
        []
        []
        []
        []
        []
        []).lemmatizer.lm t.1 = .ok t.2 := by
  decide +kernel

/-- `test_ending_ce` of `test_standardizer.py`. -/
example : ∀ t ∈ [(c!"defence", c!"defense"), (c!"defencives", c!"defensives"), (c!"defencive", c!"defensive"), (c!"defences", c!"defenses")],
    standardize (pipe (unigrams [(c!"defense", 53, 8572353841367), (c!"defensive", 12, 2857451280456), (c!"defenses", 7, 1904967520304)])
        []
        []
        []
        []
        []
        [c!"defense"]
        [c!"defensive"]).lemmatizer.lm t.1 = .ok t.2 := by
  decide +kernel

/-- `test_ending_og` of `test_standardizer.py`. -/
example : ∀ t ∈ [(c!"dialog", c!"dialogue"), (c!"dialogs", c!"dialogues")],
    standardize (pipe (unigrams [(c!"dialogue", 12, 2539956693738), (c!"dialogues", 2, 634989173435)])
        []
        []
        []
        []
        []
        [c!"dialogue"]
        []).lemmatizer.lm t.1 = .ok t.2 := by
  decide +kernel

/-- `test_double_consonants` of `test_standardizer.py`. -/
example : ∀ t ∈ [(c!"traveling", c!"travelling"), (c!"traveled", c!"travelled"), (c!"travelers", c!"travellers"), (c!"traveler", c!"traveller")],
    standardize (pipe (unigrams [(c!"travel", 66, 9207343014802), (c!"travelled", 54, 6349891734346), (c!"travelling", 41, 6349891734346), (c!"travellers", 14,
        2857451280456), (c!"travels", 13, 2857451280456), (c!"traveller", 7, 1904967520304)])
        []
        []
        []
        []
        []
        [c!"traveller"]
        []).lemmatizer.lm t.1 = .ok t.2 := by
  decide +kernel

/-- `test_ae` of `test_standardizer.py`. -/
example : ∀ t ∈ [(c!"leukaemia", c!"leukemia")],
    standardize (pipe (unigrams [(c!"leukemia", 7, 1269978346869)])
        []
        []
        []
        []
        []
        [c!"leukemia"]
        []).lemmatizer.lm t.1 = .ok t.2 := by
  decide +kernel

/-- `test_oe` of `test_standardizer.py`. -/
example : ∀ t ∈ [(c!"oenophile", c!"oenophile")],
    standardize (pipe (unigrams [(c!"oenophile", 1, 317494586717)])
        []
        []
        []
        []
        []
        []
        []).lemmatizer.lm t.1 = .ok t.2 := by
  decide +kernel

/-- `test_past_participle` of `test_inflector.py`. -/
example : ∀ t ∈ [(c!"make", c!"made"), (c!"tie", c!"tied"), (c!"apply", c!"applied"), (c!"prune", c!"pruned"), (c!"travel", c!"travelled"),
    (c!"play", c!"played")],
    (fun c : Logic => pastParticiple c.lemmatizer.lm [[]] c.reversedPps t.1)
      (pipe (unigrams [(c!"made", 1569, 102233256922969), (c!"making", 388, 32384447845164), (c!"make", 1019, 29526996564709), (c!"playing", 207,
        23812094003797), (c!"makes", 236, 22859610243645), (c!"played", 174, 16192223922582), (c!"play", 211, 14287256402278),
        (c!"tied", 65, 9842332188236), (c!"mad", 64, 9207343014802), (c!"travel", 66, 9207343014802), (c!"test", 80,
        7937364667932), (c!"plays", 31, 6667386321063), (c!"travelled", 54, 6349891734346), (c!"travelling", 41,
        6349891734346), (c!"player", 26, 6349891734346), (c!"applied", 40, 6032397147629), (c!"ties", 22, 5714902560911),
        (c!"tie", 44, 5397407974194), (c!"apple", 42, 4762418800759), (c!"apply", 27, 3174945867173), (c!"apples", 12,
        3174945867173), (c!"travels", 13, 2857451280456), (c!"traveller", 7, 1904967520304), (c!"tier", 8, 1904967520304),
        (c!"tic", 6, 1587472933586), (c!"applies", 5, 1587472933586), (c!"prune", 4, 1269978346869), (c!"madman", 17,
        1269978346869), (c!"pruned", 3, 634989173435), (c!"pruning", 1, 317494586717), (c!"ton", 6, 317494586717), (c!"ting",
        1, 317494586717), (c!"ted", 2, 317494586717), (c!"maker", 1, 317494586717)])
        [(c!"made", c!"make")]
        [(c!"made", c!"make")]
        []
        []
        []
        [c!"apple", c!"making", c!"play", c!"player", c!"test", c!"tie", c!"tier", c!"ton", c!"traveller"]
        [c!"mad"]) = .ok t.2 := by
  decide +kernel

end Tests
