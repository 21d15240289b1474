import Verif.Tests.Tables

/-! The tests of `/repo/tests/test_logic_pipeline.py`, evaluated in the model. The word tables and the
1-grams are those of `/repo/scrappybara/data`, restricted to spellings close to the words of the tests. Written by `tools/gen_tests.py`. -/

namespace Tests
open Py Model

/-- The tuples of a sample are the expected ones, up to order (`assertCountEqual`). -/
def Reported (c : Logic) (sample : List RawTuple) (expected : List Str) : Prop :=
  match GoldSentence.read sample >>= fun g => c.process (g.tokens, g.sent.tags, g.sent.tree, true) with
  | .ok r => (r.2.map fun t => t.flatten true).Perm expected
  | .error _ => False

instance (c : Logic) (sample : List RawTuple) (expected : List Str) : Decidable (Reported c sample expected) := by
  unfold Reported; split <;> infer_instance

/-- `test_1`: "In the last scene , Tamara drops her skepticism toward Sasha and allows him to fall asleep with his head resting on her lap ." -/
example : Reported
    (pipe (unigrams [(c!"and", 37063, 2278341154283320), (c!"in", 22344, 1695421093070363), (c!"to", 35422, 1359194325736746), (c!"the", 71875,
        1271565819802772), (c!"on", 10134, 924544236520767), (c!"with", 9893, 891842294088886), (c!"her", 13566,
        582602566626239), (c!"his", 11456, 495291555278982), (c!"had", 12282, 461002139913514), (c!"him", 5554,
        329876875599271), (c!"he", 15386, 303207330315018), (c!"this", 4304, 210816405580285), (c!"an", 4500, 204466513845939),
        (c!"has", 2119, 136522672288437), (c!"have", 4899, 127950318447070), (c!"toward", 533, 89533473454278), (c!"any", 1030,
        87628505933974), (c!"thing", 863, 63498917343459), (c!"last", 712, 38734339579510), (c!"head", 944, 29844491151426),
        (c!"ones", 174, 24129588590515), (c!"fall", 224, 22542115656928), (c!"dropped", 159, 17779696856169), (c!"scene", 129,
        13652267228844), (c!"allowed", 128, 12064794295257), (c!"drop", 89, 11429805121823), (c!"asleep", 173, 11429805121823),
        (c!"rest", 301, 9524837601519), (c!"drops", 37, 7937364667932), (c!"dropping", 43, 7619870081215), (c!"headed", 75,
        6349891734346), (c!"resting", 33, 6349891734346), (c!"scenes", 30, 6032397147629), (c!"rested", 32, 6032397147629),
        (c!"allow", 75, 5714902560911), (c!"lasted", 33, 5714902560911), (c!"hid", 31, 4762418800759), (c!"thus", 32,
        4127429627325), (c!"toes", 33, 4127429627325), (c!"lap", 98, 3809935040608), (c!"allowing", 27, 3809935040608),
        (c!"hive", 22, 3809935040608), (c!"thief", 24, 3492440453890), (c!"rests", 11, 3492440453890), (c!"herd", 29,
        2857451280456), (c!"allows", 17, 2857451280456), (c!"sting", 13, 1904967520304), (c!"heave", 6, 1587472933586),
        (c!"hi", 14, 1269978346869), (c!"hay", 4, 1269978346869), (c!"skepticism", 4, 1269978346869), (c!"hissed", 7,
        952483760152), (c!"hoe", 2, 634989173435), (c!"sash", 4, 634989173435), (c!"hes", 2, 634989173435), (c!"anus", 2,
        634989173435), (c!"thy", 1, 317494586717), (c!"ha", 8, 317494586717), (c!"scenic", 2, 317494586717), (c!"tho", 1,
        317494586717), (c!"lapped", 1, 317494586717), (c!"dropper", 2, 317494586717), (c!"hoes", 1, 317494586717)])
        [(c!"fell", c!"fall"), (c!"had", c!"have"), (c!"hid", c!"hide"), (c!"stung", c!"sting")]
        [(c!"fallen", c!"fall"), (c!"had", c!"have"), (c!"stung", c!"sting")]
        []
        []
        []
        [c!"drop", c!"dropping", c!"fall", c!"head", c!"herd", c!"hive", c!"lap", c!"rest", c!"scene", c!"skepticism", c!"sting",
        c!"thief", c!"thing"]
        [c!"asleep", c!"last"])
    [(c!"In", c!"PREP", c!"MARK", 3), (c!"the", c!"DET", c!"ART", 3), (c!"last", c!"ADJ", c!"CPL", 3), (c!"scene", c!"NOUN",
      c!"CPL", 6), (c!",", c!"PUNCT", c!"NODEP", -1), (c!"Tamara", c!"PROPN", c!"SUBJ", 6), (c!"drops", c!"VERB", c!"ROOT",
      -1), (c!"her", c!"DET", c!"ART", 8), (c!"skepticism", c!"NOUN", c!"OBJ", 6), (c!"toward", c!"PREP", c!"MARK", 10),
      (c!"Sasha", c!"PROPN", c!"CPL", 8), (c!"and", c!"CONJ", c!"NODEP", -1), (c!"allows", c!"VERB", c!"AND", 6), (c!"him",
      c!"PRON", c!"SUBJ", 15), (c!"to", c!"FRAG", c!"PART", 15), (c!"fall", c!"VERB", c!"OBJ", 12), (c!"asleep", c!"FRAG",
      c!"PART", 15), (c!"with", c!"PREP", c!"MARK", 20), (c!"his", c!"DET", c!"ART", 19), (c!"head", c!"NOUN", c!"SUBJ", 20),
      (c!"resting", c!"VERB", c!"CPL", 15), (c!"on", c!"PREP", c!"MARK", 23), (c!"her", c!"DET", c!"ART", 23), (c!"lap",
      c!"NOUN", c!"CPL", 20), (c!".", c!"PUNCT", c!"NODEP", -1)]
    [c!"NCA(scene, be, last)", c!"PTN(tamara, drop, skepticism)", c!"NCL(skepticism, be, dropped)",
      c!"PTOI(tamara, allow, he, fall asleep)", c!"NI(head, rest)"] := by
  decide +kernel

/-- `test_2`: "- Everyone avoids and hates him ." With the 2-gram
"they hate": the file of 2-grams is not in the repository. -/
example : Reported
    (pipe (unigrams [(c!"and", 37063, 2278341154283320), (c!"him", 5554, 329876875599271), (c!"an", 4500, 204466513845939), (c!"any", 1030,
        87628505933974), (c!"everyone", 351, 33654426192033), (c!"hat", 96, 12382288881975), (c!"hats", 40, 7937364667932),
        (c!"hated", 90, 7302375494498), (c!"hate", 65, 6667386321063), (c!"avoided", 35, 6032397147629), (c!"avoiding", 22,
        3174945867173), (c!"hating", 8, 1904967520304), (c!"hates", 18, 1904967520304), (c!"avoid", 86, 1587472933586),
        (c!"avoids", 3, 952483760152), (c!"anus", 2, 634989173435), (c!"they hate", 1, 1)])
        []
        []
        []
        []
        []
        [c!"everyone", c!"hat", c!"hate"]
        [])
    [(c!"-", c!"PUNCT", c!"NODEP", -1), (c!"Everyone", c!"PRON", c!"SUBJ", 2), (c!"avoids", c!"VERB", c!"ROOT", -1), (c!"and",
      c!"CONJ", c!"NODEP", -1), (c!"hates", c!"VERB", c!"AND", 2), (c!"him", c!"PRON", c!"OBJ", 2), (c!".", c!"PUNCT",
      c!"NODEP", -1)]
    [c!"OTO(everyone, avoid, he)", c!"OCL(he, be, avoided)", c!"OTO(everyone, hate, he)", c!"OCL(he, be, hated)"] := by
  decide +kernel

/-- `test_3`: "But do n't confuse Whodom with obscurity or viral fame ." -/
example : Reported
    (pipe (unigrams [(c!"with", 9893, 891842294088886), (c!"or", 4243, 519421143869497), (c!"but", 5597, 245105820945753), (c!"our", 1256,
        106678181137012), (c!"do", 3670, 66356368623915), (c!"does", 940, 45719220487291), (c!"confused", 66, 10477321361671),
        (c!"famous", 91, 9207343014802), (c!"fame", 21, 4444924214042), (c!"confusing", 20, 3174945867173), (c!"viral", 14,
        3174945867173), (c!"butt", 9, 1904967520304), (c!"obscurity", 3, 634989173435), (c!"confuse", 5, 317494586717),
        (c!"famed", 3, 317494586717), (c!"butted", 1, 317494586717), (c!"buttes", 1, 317494586717)])
        [(c!"did", c!"do")]
        [(c!"done", c!"do")]
        []
        []
        []
        [c!"butt", c!"fame", c!"obscurity"]
        [c!"famous", c!"viral"])
    [(c!"But", c!"CONJ", c!"MARK", 3), (c!"do", c!"MAT", c!"AUX", 3), (c!"n't", c!"ADV", c!"NEG", 3), (c!"confuse", c!"VERB",
      c!"ROOT", -1), (c!"Whodom", c!"PROPN", c!"OBJ", 3), (c!"with", c!"FRAG", c!"PART", 3), (c!"obscurity", c!"NOUN",
      c!"IOBJ", 3), (c!"or", c!"CONJ", c!"NODEP", -1), (c!"viral", c!"ADJ", c!"CPL", 9), (c!"fame", c!"NOUN", c!"OR", 6),
      (c!".", c!"PUNCT", c!"NODEP", -1)]
    [c!"PCL(whodom, NOT be, confused with)", c!"NCA(fame, be, viral)"] := by
  decide +kernel

/-- `test_4`: "Are n't you apologetic at all , Harry ?" -/
example : Reported
    (pipe (unigrams [(c!"at", 7935, 724840141475588), (c!"you", 8647, 272092860816723), (c!"are", 3167, 223516189048977), (c!"all", 3741,
        211133900167002), (c!"apologetic", 6, 1587472933586), (c!"allied", 5, 1269978346869), (c!"youd", 2, 634989173435),
        (c!"hare", 2, 634989173435), (c!"ales", 1, 317494586717), (c!"al", 3, 317494586717), (c!"harried", 1, 317494586717)])
        []
        []
        []
        []
        []
        []
        [c!"apologetic"])
    [(c!"Are", c!"VERB", c!"ROOT", -1), (c!"n't", c!"ADV", c!"NEG", 0), (c!"you", c!"PRON", c!"SUBJ", 0), (c!"apologetic", c!"ADJ",
      c!"PROP", 0), (c!"at", c!"ADV", c!"CPL", 3), (c!"all", c!"ADV", c!"FLAT", 4), (c!",", c!"PUNCT", c!"NODEP", -1),
      (c!"Harry", c!"PROPN", c!"CALLEE", 0), (c!"?", c!"PUNCT", c!"NODEP", -1)]
    [c!"OCA(you, NOT be, apologetic)"] := by
  decide +kernel

/-- `test_5`: "Lock up your sleepless portals ." -/
example : Reported
    (pipe (unigrams [(c!"up", 4326, 300349879034562), (c!"your", 1861, 128585307620505), (c!"locked", 76, 11747299708540), (c!"lock", 58,
        5714902560911), (c!"sleepless", 8, 2539956693738), (c!"portal", 4, 634989173435), (c!"portals", 1, 317494586717)])
        []
        []
        []
        []
        []
        [c!"portal"]
        [])
    [(c!"Lock", c!"VERB", c!"ROOT", -1), (c!"up", c!"FRAG", c!"PART", 0), (c!"your", c!"DET", c!"ART", 4), (c!"sleepless", c!"ADJ",
      c!"CPL", 4), (c!"portals", c!"NOUN", c!"OBJ", 0), (c!".", c!"PUNCT", c!"NODEP", -1)]
    [c!"NCA(portal, be, sleepless)", c!"NCL(portal, be, locked up)"] := by
  decide +kernel

/-- `test_6`: "The things i did to you were beyond inexcusable ." -/
example : Reported
    (pipe (unigrams [(c!"to", 35422, 1359194325736746), (c!"the", 71875, 1271565819802772), (c!"by", 3927, 496879028212569), (c!"were", 5741,
        362896312617870), (c!"you", 8647, 272092860816723), (c!"i", 19918, 231771048303626), (c!"this", 4304, 210816405580285),
        (c!"did", 3955, 111123105351054), (c!"things", 943, 94613386841754), (c!"do", 3670, 66356368623915), (c!"thing", 863,
        63498917343459), (c!"be", 5363, 49211660941181), (c!"does", 940, 45719220487291), (c!"beyond", 190, 32701942431882),
        (c!"boy", 712, 28892007391274), (c!"bad", 352, 25717061524101), (c!"died", 362, 25717061524101), (c!"bed", 614,
        20954642723342), (c!"best", 413, 16509718509299), (c!"die", 200, 13652267228844), (c!"bees", 70, 9842332188236),
        (c!"bus", 178, 9207343014802), (c!"dies", 31, 5714902560911), (c!"thus", 32, 4127429627325), (c!"toes", 33,
        4127429627325), (c!"dive", 17, 3809935040608), (c!"bay", 36, 3492440453890), (c!"thief", 24, 3492440453890), (c!"boon",
        2, 634989173435), (c!"youd", 2, 634989173435), (c!"thy", 1, 317494586717), (c!"di", 3, 317494586717), (c!"thingy", 2,
        317494586717), (c!"tho", 1, 317494586717), (c!"id", 2, 317494586717), (c!"bon", 1, 317494586717)])
        [(c!"did", c!"do"), (c!"was", c!"be"), (c!"were", c!"be")]
        [(c!"been", c!"be"), (c!"done", c!"do")]
        []
        [(c!"worse", c!"bad")]
        [(c!"best", c!"good"), (c!"worst", c!"bad")]
        [c!"bed", c!"boy", c!"bus", c!"dive", c!"thief", c!"thing"]
        [c!"bad"])
    [(c!"The", c!"DET", c!"ART", 1), (c!"things", c!"NOUN", c!"SUBJ", 6), (c!"i", c!"PRON", c!"SUBJ", 3), (c!"did", c!"VERB",
      c!"CPL", 1), (c!"to", c!"PREP", c!"MARK", 5), (c!"you", c!"PRON", c!"CPL", 3), (c!"were", c!"VERB", c!"ROOT", -1),
      (c!"beyond", c!"ADV", c!"CPL", 8), (c!"inexcusable", c!"ADJ", c!"PROP", 6), (c!".", c!"PUNCT", c!"NODEP", -1)]
    [c!"NCA(thing, be, inexcusable)", c!"OTN(i, do, thing)", c!"NCL(thing, be, done)"] := by
  decide +kernel

/-- `test_7`: "I made her swim ." -/
example : Reported
    (pipe (unigrams [(c!"her", 13566, 582602566626239), (c!"his", 11456, 495291555278982), (c!"had", 12282, 461002139913514), (c!"he", 15386,
        303207330315018), (c!"i", 19918, 231771048303626), (c!"has", 2119, 136522672288437), (c!"have", 4899, 127950318447070),
        (c!"made", 1569, 102233256922969), (c!"making", 388, 32384447845164), (c!"make", 1019, 29526996564709), (c!"makes",
        236, 22859610243645), (c!"mad", 64, 9207343014802), (c!"swim", 58, 6984880907781), (c!"herd", 29, 2857451280456),
        (c!"hay", 4, 1269978346869), (c!"madman", 17, 1269978346869), (c!"hoe", 2, 634989173435), (c!"hes", 2, 634989173435),
        (c!"ha", 8, 317494586717), (c!"id", 2, 317494586717), (c!"hoes", 1, 317494586717), (c!"maker", 1, 317494586717)])
        [(c!"had", c!"have"), (c!"made", c!"make"), (c!"swam", c!"swim")]
        [(c!"had", c!"have"), (c!"made", c!"make"), (c!"swum", c!"swim")]
        []
        []
        []
        [c!"herd", c!"making"]
        [c!"mad"])
    [(c!"I", c!"PRON", c!"SUBJ", 1), (c!"made", c!"VERB", c!"ROOT", -1), (c!"her", c!"PRON", c!"SUBJ", 3), (c!"swim", c!"VERB",
      c!"OBJ", 1), (c!".", c!"PUNCT", c!"NODEP", -1)]
    [c!"OTOI(i, make, she, swim)"] := by
  decide +kernel

/-- `test_8`: "The insurance company will pay at least 175 ." -/
example : Reported
    (pipe (unigrams [(c!"the", 71875, 1271565819802772), (c!"at", 7935, 724840141475588), (c!"this", 4304, 210816405580285), (c!"will", 1297,
        108583148657315), (c!"thing", 863, 63498917343459), (c!"company", 237, 20319653549907), (c!"wild", 132,
        18732180616320), (c!"pay", 171, 12382288881975), (c!"companies", 60, 10794815948388), (c!"insurance", 51,
        5714902560911), (c!"thus", 32, 4127429627325), (c!"thief", 24, 3492440453890), (c!"pad", 21, 2857451280456),
        (c!"least", 447, 2539956693738), (c!"pas", 3, 952483760152), (c!"willed", 3, 634989173435), (c!"thy", 1, 317494586717),
        (c!"tho", 1, 317494586717), (c!"pave", 2, 317494586717)])
        [(c!"paid", c!"pay")]
        [(c!"paid", c!"pay")]
        []
        []
        []
        [c!"company", c!"insurance", c!"thief", c!"thing", c!"will"]
        [c!"least", c!"wild"])
    [(c!"The", c!"DET", c!"ART", 2), (c!"insurance", c!"NOUN", c!"CPL", 2), (c!"company", c!"NOUN", c!"SUBJ", 4), (c!"will",
      c!"MAT", c!"AUX", 4), (c!"pay", c!"VERB", c!"ROOT", -1), (c!"at", c!"ADV", c!"CPL", 7), (c!"least", c!"ADV", c!"FLAT",
      5), (c!"175", c!"NUM", c!"OBJ", 4), (c!".", c!"PUNCT", c!"NODEP", -1)]
    [c!"NTU(insurance company, pay, 175)", c!"UCL(175, be, paid)"] := by
  decide +kernel

/-- `test_9`: "Does Tar Sand Oil Increase the Risk of Pipeline Spills ?" -/
example : Reported
    (pipe (unigrams [(c!"of", 30530, 1630334702793317), (c!"the", 71875, 1271565819802772), (c!"this", 4304, 210816405580285), (c!"do", 3670,
        66356368623915), (c!"thing", 863, 63498917343459), (c!"does", 940, 45719220487291), (c!"doing", 473, 28892007391274),
        (c!"died", 362, 25717061524101), (c!"die", 200, 13652267228844), (c!"oil", 74, 11747299708540), (c!"sand", 93,
        8889848428084), (c!"risk", 75, 7937364667932), (c!"spilled", 32, 6984880907781), (c!"de", 94, 6032397147629),
        (c!"dies", 31, 5714902560911), (c!"increased", 25, 5079913387477), (c!"deer", 32, 4444924214042), (c!"thus", 32,
        4127429627325), (c!"thief", 24, 3492440453890), (c!"spilling", 17, 3492440453890), (c!"increase", 25, 3492440453890),
        (c!"sane", 10, 2539956693738), (c!"increasing", 14, 2539956693738), (c!"spill", 10, 2222462107021), (c!"risked", 7,
        1904967520304), (c!"deed", 9, 1269978346869), (c!"increases", 5, 1269978346869), (c!"pipeline", 3, 952483760152),
        (c!"dove", 3, 634989173435), (c!"spills", 2, 634989173435), (c!"thy", 1, 317494586717), (c!"sanded", 2, 317494586717),
        (c!"tho", 1, 317494586717), (c!"sanest", 1, 317494586717), (c!"ding", 1, 317494586717), (c!"dey", 1, 317494586717),
        (c!"pipelines", 1, 317494586717)])
        [(c!"did", c!"do")]
        [(c!"done", c!"do")]
        [(c!"deer", c!"deer")]
        []
        []
        [c!"deer", c!"increase", c!"risk", c!"sand", c!"thief", c!"thing"]
        [])
    [(c!"Does", c!"MAT", c!"AUX", 4), (c!"Tar", c!"NOUN", c!"CPL", 2), (c!"Sand", c!"NOUN", c!"CPL", 3), (c!"Oil", c!"NOUN",
      c!"SUBJ", 4), (c!"Increase", c!"VERB", c!"ROOT", -1), (c!"the", c!"DET", c!"ART", 6), (c!"Risk", c!"NOUN", c!"OBJ", 4),
      (c!"of", c!"PREP", c!"MARK", 9), (c!"Pipeline", c!"NOUN", c!"CPL", 9), (c!"Spills", c!"NOUN", c!"CPL", 6), (c!"?",
      c!"PUNCT", c!"NODEP", -1)]
    [c!"NTN(tar sand oil, increase, risk)", c!"NCL(risk, be, increased)"] := by
  decide +kernel

/-- `test_10`: "Heritage Auctions will offer the 1951 Fender guitar Sunday ." -/
example : Reported
    (pipe (unigrams [(c!"of", 30530, 1630334702793317), (c!"the", 71875, 1271565819802772), (c!"this", 4304, 210816405580285), (c!"off", 1564,
        193671697897551), (c!"will", 1297, 108583148657315), (c!"thing", 863, 63498917343459), (c!"wild", 132, 18732180616320),
        (c!"offered", 134, 14604750988996), (c!"offer", 113, 10477321361671), (c!"thus", 32, 4127429627325), (c!"thief", 24,
        3492440453890), (c!"heritage", 10, 1587472933586), (c!"guitar", 11, 1587472933586), (c!"auction", 6, 1269978346869),
        (c!"fender", 3, 952483760152), (c!"willed", 3, 634989173435), (c!"fending", 3, 634989173435), (c!"fend", 2,
        634989173435), (c!"fended", 1, 317494586717), (c!"thy", 1, 317494586717), (c!"tho", 1, 317494586717), (c!"auctions", 1,
        317494586717), (c!"sundae", 1, 317494586717)])
        []
        []
        []
        []
        []
        [c!"guitar", c!"thief", c!"thing", c!"will"]
        [c!"wild"])
    [(c!"Heritage", c!"PROPN", c!"SUBJ", 3), (c!"Auctions", c!"PROPN", c!"FLAT", 0), (c!"will", c!"MAT", c!"AUX", 3), (c!"offer",
      c!"VERB", c!"ROOT", -1), (c!"the", c!"DET", c!"ART", 7), (c!"1951", c!"NUM", c!"CPL", 7), (c!"Fender", c!"PROPN",
      c!"CPL", 7), (c!"guitar", c!"NOUN", c!"OBJ", 3), (c!"Sunday", c!"PROPN", c!"CPL", 3), (c!".", c!"PUNCT", c!"NODEP", -1)]
    [c!"PTN(heritage auctions, offer, 1951 fender guitar)", c!"NCL(1951 fender guitar, be, offered)"] := by
  decide +kernel

/-- `test_11`: "Call me Brandon ." -/
example : Reported
    (pipe (unigrams [(c!"my", 4771, 232406037477061), (c!"me", 4682, 226691134916150), (c!"called", 890, 67308852384067), (c!"may", 365,
        36511877472489), (c!"call", 472, 24764577763949), (c!"move", 288, 18414686029603), (c!"mad", 64, 9207343014802),
        (c!"moon", 77, 4444924214042), (c!"brand", 19, 3809935040608), (c!"brands", 10, 2539956693738), (c!"branding", 3,
        952483760152), (c!"brandy", 5, 634989173435), (c!"m", 3, 634989173435), (c!"mes", 3, 634989173435), (c!"brandies", 1,
        317494586717), (c!"branded", 3, 317494586717), (c!"ma", 2, 317494586717), (c!"maman", 1, 317494586717)])
        []
        []
        []
        []
        []
        [c!"brand", c!"call", c!"may", c!"moon", c!"move"]
        [c!"mad"])
    [(c!"Call", c!"VERB", c!"ROOT", -1), (c!"me", c!"PRON", c!"OBJ", 0), (c!"Brandon", c!"PROPN", c!"IPROP", 0), (c!".", c!"PUNCT",
      c!"NODEP", -1)]
    [c!"OCP(i, be called, brandon)"] := by
  decide +kernel

/-- `test_12`: "They call them light sabers ." -/
example : Reported
    (pipe (unigrams [(c!"the", 71875, 1271565819802772), (c!"them", 3497, 298127416927541), (c!"they", 5496, 174304528107796), (c!"called", 890,
        67308852384067), (c!"light", 633, 60958960649721), (c!"call", 472, 24764577763949), (c!"themes", 5, 952483760152),
        (c!"saber", 3, 952483760152), (c!"lighted", 3, 634989173435), (c!"sabers", 1, 317494586717)])
        []
        []
        []
        []
        []
        [c!"call"]
        [])
    [(c!"They", c!"PRON", c!"SUBJ", 1), (c!"call", c!"VERB", c!"ROOT", -1), (c!"them", c!"PRON", c!"OBJ", 1), (c!"light", c!"NOUN",
      c!"CPL", 4), (c!"sabers", c!"NOUN", c!"IPROP", 1), (c!".", c!"PUNCT", c!"NODEP", -1)]
    [c!"OCN(they, be called, light saber)"] := by
  decide +kernel

/-- `test_13`: "Paul is as nice as John ." -/
example : Reported
    (pipe (unigrams [(c!"a", 35971, 764844459401967), (c!"as", 7530, 584190039559826), (c!"is", 7688, 444492421404215), (c!"i", 19918,
        231771048303626), (c!"if", 3403, 132395242661113), (c!"nice", 262, 17462202269451), (c!"nicer", 15, 4127429627325),
        (c!"ad", 18, 3174945867173), (c!"john", 7, 1269978346869), (c!"nicest", 5, 952483760152), (c!"id", 2, 317494586717)])
        []
        []
        []
        []
        []
        [c!"ad"]
        [c!"nice"])
    [(c!"Paul", c!"PROPN", c!"SUBJ", 1), (c!"is", c!"VERB", c!"ROOT", -1), (c!"as", c!"ADV", c!"CPL", 3), (c!"nice", c!"ADJ",
      c!"PROP", 1), (c!"as", c!"PREP", c!"CMARK", 5), (c!"John", c!"PROPN", c!"CPL", 3), (c!".", c!"PUNCT", c!"NODEP", -1)]
    [c!"PCA(paul, be, nice)", c!"PCA(john, be, nice)"] := by
  decide +kernel

/-- `test_14`: "My computer is as powerful as hers , if not more ." -/
example : Reported
    (pipe (unigrams [(c!"a", 35971, 764844459401967), (c!"as", 7530, 584190039559826), (c!"her", 13566, 582602566626239), (c!"is", 7688,
        444492421404215), (c!"my", 4771, 232406037477061), (c!"i", 19918, 231771048303626), (c!"me", 4682, 226691134916150),
        (c!"more", 2305, 155889842078193), (c!"if", 3403, 132395242661113), (c!"not", 5823, 129220296793940), (c!"here", 1196,
        112393083697923), (c!"hers", 94, 13652267228844), (c!"noted", 87, 10159826774953), (c!"notes", 54, 9207343014802),
        (c!"computer", 107, 9207343014802), (c!"powerful", 62, 6667386321063), (c!"ad", 18, 3174945867173), (c!"herd", 29,
        2857451280456), (c!"heron", 3, 952483760152), (c!"m", 3, 634989173435), (c!"moron", 4, 634989173435), (c!"mes", 3,
        634989173435), (c!"computing", 2, 634989173435), (c!"id", 2, 317494586717), (c!"mores", 1, 317494586717)])
        []
        []
        []
        []
        []
        [c!"ad", c!"computer", c!"herd", c!"more"]
        [])
    [(c!"My", c!"DET", c!"ART", 1), (c!"computer", c!"NOUN", c!"SUBJ", 2), (c!"is", c!"VERB", c!"ROOT", -1), (c!"as", c!"ADV",
      c!"CPL", 4), (c!"powerful", c!"ADJ", c!"PROP", 2), (c!"as", c!"PREP", c!"CMARK", 6), (c!"hers", c!"PRON", c!"CPL", 4),
      (c!",", c!"PUNCT", c!"NODEP", -1), (c!"if", c!"ADV", c!"CPL", 4), (c!"not", c!"ADV", c!"FLAT", 8), (c!"more", c!"ADV",
      c!"FLAT", 9), (c!".", c!"PUNCT", c!"NODEP", -1)]
    [c!"NCA(computer, be, powerful)", c!"OCA(hers, be, powerful)"] := by
  decide +kernel

/-- `test_15`: "Are you affected by the collapse of Carillion ?" -/
example : Reported
    (pipe (unigrams [(c!"of", 30530, 1630334702793317), (c!"the", 71875, 1271565819802772), (c!"by", 3927, 496879028212569), (c!"you", 8647,
        272092860816723), (c!"are", 3167, 223516189048977), (c!"this", 4304, 210816405580285), (c!"thing", 863,
        63498917343459), (c!"be", 5363, 49211660941181), (c!"bed", 614, 20954642723342), (c!"best", 413, 16509718509299),
        (c!"bus", 178, 9207343014802), (c!"collapsed", 38, 6984880907781), (c!"affected", 29, 5397407974194), (c!"collapse",
        25, 4762418800759), (c!"affect", 25, 4762418800759), (c!"thus", 32, 4127429627325), (c!"thief", 24, 3492440453890),
        (c!"affects", 7, 2222462107021), (c!"collapsing", 8, 2222462107021), (c!"laps", 9, 1269978346869), (c!"collapses", 7,
        1269978346869), (c!"lapses", 4, 1269978346869), (c!"affecting", 6, 1269978346869), (c!"youd", 2, 634989173435),
        (c!"lapse", 2, 634989173435), (c!"thy", 1, 317494586717), (c!"tho", 1, 317494586717), (c!"bon", 1, 317494586717),
        (c!"lapsed", 1, 317494586717)])
        [(c!"was", c!"be"), (c!"were", c!"be")]
        [(c!"been", c!"be")]
        []
        []
        [(c!"best", c!"good")]
        [c!"bed", c!"bus", c!"collapse", c!"thief", c!"thing"]
        [])
    [(c!"Are", c!"VERB", c!"ROOT", -1), (c!"you", c!"PRON", c!"SUBJ", 0), (c!"affected", c!"ADJ", c!"PROP", 0), (c!"by", c!"PREP",
      c!"MARK", 5), (c!"the", c!"DET", c!"ART", 5), (c!"collapse", c!"NOUN", c!"CPL", 2), (c!"of", c!"PREP", c!"MARK", 7),
      (c!"Carillion", c!"PROPN", c!"CPL", 5), (c!"?", c!"PUNCT", c!"NODEP", -1)]
    [c!"OCL(you, be, affected)", c!"NTO(collapse, affect, you)"] := by
  decide +kernel

/-- `test_16`: "Children have had limbs amputated because of cluster bombs ." -/
example : Reported
    (pipe (unigrams [(c!"of", 30530, 1630334702793317), (c!"had", 12282, 461002139913514), (c!"has", 2119, 136522672288437), (c!"have", 4899,
        127950318447070), (c!"because", 1534, 95883365188624), (c!"children", 690, 40639307099814), (c!"having", 426,
        31431964085012), (c!"child", 585, 31114469498295), (c!"limbs", 38, 6349891734346), (c!"bombs", 17, 4762418800759),
        (c!"limb", 23, 4444924214042), (c!"bomb", 39, 4444924214042), (c!"chilled", 11, 3174945867173), (c!"chill", 23,
        2857451280456), (c!"bombing", 17, 2539956693738), (c!"cluster", 24, 2222462107021), (c!"bombed", 8, 2222462107021),
        (c!"chilly", 21, 1904967520304), (c!"clustered", 7, 1587472933586), (c!"hay", 4, 1269978346869), (c!"chills", 5,
        952483760152), (c!"bomber", 4, 634989173435), (c!"amputated", 2, 634989173435), (c!"chilling", 3, 634989173435),
        (c!"amputate", 3, 634989173435), (c!"ha", 8, 317494586717), (c!"chilies", 1, 317494586717), (c!"chile", 1,
        317494586717)])
        [(c!"had", c!"have")]
        [(c!"had", c!"have")]
        [(c!"children", c!"child")]
        []
        []
        [c!"bomb", c!"child", c!"cluster", c!"limb"]
        [c!"chilly"])
    [(c!"Children", c!"NOUN", c!"SUBJ", 2), (c!"have", c!"MAT", c!"AUX", 2), (c!"had", c!"VERB", c!"ROOT", -1), (c!"limbs",
      c!"NOUN", c!"OBJ", 2), (c!"amputated", c!"ADJ", c!"CPL", 3), (c!"because", c!"PREP", c!"MARK", 8), (c!"of", c!"PREP",
      c!"FLAT", 5), (c!"cluster", c!"NOUN", c!"CPL", 8), (c!"bombs", c!"NOUN", c!"CPL", 4), (c!".", c!"PUNCT", c!"NODEP", -1)]
    [c!"NTN(child, have, limb)", c!"NCL(limb, be, amputated)"] := by
  decide +kernel

/-- `test_17`: "In May , 2017 , a twenty two year old Dutch entrepreneur named Boyan Slat unveiled a contraption that he believed would rid the oceans of plastic ." -/
example : Reported
    (pipe (unigrams [(c!"in", 22344, 1695421093070363), (c!"of", 30530, 1630334702793317), (c!"the", 71875, 1271565819802772), (c!"that", 18046,
        1068686778890420), (c!"a", 35971, 764844459401967), (c!"her", 13566, 582602566626239), (c!"his", 11456,
        495291555278982), (c!"had", 12282, 461002139913514), (c!"he", 15386, 303207330315018), (c!"would", 4614,
        228913597023171), (c!"this", 4304, 210816405580285), (c!"has", 2119, 136522672288437), (c!"have", 4899,
        127950318447070), (c!"two", 1683, 85406043826953), (c!"thing", 863, 63498917343459), (c!"old", 1050, 46671704247443),
        (c!"may", 365, 36511877472489), (c!"named", 250, 36194382885772), (c!"name", 733, 26352050697536), (c!"plastic", 243,
        24764577763949), (c!"twenty", 223, 22542115656928), (c!"year", 629, 18097191442886), (c!"names", 152, 17779696856169),
        (c!"believed", 174, 15239740162430), (c!"believe", 331, 13652267228844), (c!"mad", 64, 9207343014802), (c!"ocean", 98,
        4762418800759), (c!"believing", 25, 4444924214042), (c!"thus", 32, 4127429627325), (c!"twenties", 36, 3809935040608),
        (c!"naming", 19, 3492440453890), (c!"thief", 24, 3492440453890), (c!"believes", 49, 3174945867173), (c!"rides", 11,
        3174945867173), (c!"ad", 18, 3174945867173), (c!"veil", 16, 2857451280456), (c!"rid", 41, 2539956693738), (c!"plaster",
        17, 2539956693738), (c!"oceans", 20, 1904967520304), (c!"hay", 4, 1269978346869), (c!"believer", 3, 952483760152),
        (c!"entrepreneur", 4, 952483760152), (c!"contraption", 7, 952483760152), (c!"veils", 4, 634989173435), (c!"ole", 4,
        634989173435), (c!"hoe", 2, 634989173435), (c!"heed", 4, 634989173435), (c!"veiled", 3, 634989173435), (c!"hes", 2,
        634989173435), (c!"oceanic", 3, 634989173435), (c!"unveiling", 2, 634989173435), (c!"thy", 1, 317494586717), (c!"ha",
        8, 317494586717), (c!"tho", 1, 317494586717), (c!"ma", 2, 317494586717), (c!"slat", 1, 317494586717), (c!"rife", 2,
        317494586717), (c!"hoes", 1, 317494586717), (c!"unveiled", 3, 317494586717), (c!"slated", 1, 317494586717), (c!"maman",
        1, 317494586717)])
        [(c!"had", c!"have"), (c!"rid", c!"rid")]
        [(c!"had", c!"have"), (c!"rid", c!"rid")]
        []
        []
        []
        [c!"ad", c!"believing", c!"contraption", c!"entrepreneur", c!"may", c!"name", c!"ocean", c!"plastic", c!"thief", c!"thing",
        c!"veil", c!"year"]
        [c!"mad", c!"oceanic", c!"old"])
    [(c!"In", c!"PREP", c!"MARK", 1), (c!"May", c!"PROPN", c!"CPL", 15), (c!",", c!"PUNCT", c!"NODEP", -1), (c!"2017", c!"NUM",
      c!"CPL", 1), (c!",", c!"PUNCT", c!"NODEP", -1), (c!"a", c!"DET", c!"ART", 11), (c!"twenty", c!"NUM", c!"ART", 8),
      (c!"two", c!"NUM", c!"AND", 6), (c!"year", c!"NOUN", c!"CPL", 9), (c!"old", c!"ADJ", c!"CPL", 10), (c!"Dutch", c!"ADJ",
      c!"CPL", 11), (c!"entrepreneur", c!"NOUN", c!"SUBJ", 15), (c!"named", c!"ADJ", c!"CPL", 11), (c!"Boyan", c!"PROPN",
      c!"PROP", 12), (c!"Slat", c!"PROPN", c!"FLAT", 13), (c!"unveiled", c!"VERB", c!"ROOT", -1), (c!"a", c!"DET", c!"ART",
      17), (c!"contraption", c!"NOUN", c!"OBJ", 15), (c!"that", c!"PRON", c!"SUBJ", 22), (c!"he", c!"PRON", c!"SUBJ", 20),
      (c!"believed", c!"VERB", c!"CPL", 22), (c!"would", c!"MAT", c!"MODAL", 22), (c!"rid", c!"VERB", c!"CPL", 17), (c!"the",
      c!"DET", c!"ART", 24), (c!"oceans", c!"NOUN", c!"OBJ", 22), (c!"of", c!"PREP", c!"MARK", 26), (c!"plastic", c!"NOUN",
      c!"CPL", 22), (c!".", c!"PUNCT", c!"NODEP", -1)]
    [c!"NCA(entrepreneur, be, dutch)", c!"NCL(entrepreneur, be, named)", c!"NCP(entrepreneur, be named, boyan slat)",
      c!"NTN(entrepreneur, unveil, contraption)", c!"NCL(contraption, be, unveiled)", c!"OI(he, believe)",
      c!"NTN(contraption, rid, ocean)", c!"NCL(ocean, be, rid)"] := by
  decide +kernel

/-- `test_18`: "I think the strength and power that I bring at this weight overwhelms a lot of people ." -/
example : Reported
    (pipe (unigrams [(c!"and", 37063, 2278341154283320), (c!"of", 30530, 1630334702793317), (c!"the", 71875, 1271565819802772), (c!"that", 18046,
        1068686778890420), (c!"a", 35971, 764844459401967), (c!"at", 7935, 724840141475588), (c!"i", 19918, 231771048303626),
        (c!"this", 4304, 210816405580285), (c!"an", 4500, 204466513845939), (c!"people", 1975, 134300210181416), (c!"any",
        1030, 87628505933974), (c!"thing", 863, 63498917343459), (c!"power", 247, 26034556110818), (c!"think", 1262,
        24764577763949), (c!"bring", 216, 13334772642126), (c!"weight", 110, 11429805121823), (c!"strength", 55,
        8254859254650), (c!"brief", 70, 6984880907781), (c!"lot", 435, 6032397147629), (c!"overwhelmed", 21, 4444924214042),
        (c!"thus", 32, 4127429627325), (c!"overwhelming", 21, 4127429627325), (c!"thief", 24, 3492440453890), (c!"ad", 18,
        3174945867173), (c!"bred", 12, 2539956693738), (c!"overwhelm", 4, 952483760152), (c!"weighted", 5, 952483760152),
        (c!"peoples", 5, 952483760152), (c!"anus", 2, 634989173435), (c!"thy", 1, 317494586717), (c!"tho", 1, 317494586717),
        (c!"id", 2, 317494586717), (c!"overwhelms", 1, 317494586717)])
        [(c!"bred", c!"breed"), (c!"brought", c!"bring"), (c!"thought", c!"think")]
        [(c!"bred", c!"breed"), (c!"brought", c!"bring"), (c!"thought", c!"think")]
        [(c!"people", c!"people")]
        []
        []
        [c!"ad", c!"lot", c!"people", c!"power", c!"strength", c!"thief", c!"thing", c!"weight"]
        [c!"brief", c!"overwhelming"])
    [(c!"I", c!"PRON", c!"SUBJ", 1), (c!"think", c!"VERB", c!"ROOT", -1), (c!"the", c!"DET", c!"ART", 3), (c!"strength", c!"NOUN",
      c!"SUBJ", 12), (c!"and", c!"CONJ", c!"NODEP", -1), (c!"power", c!"NOUN", c!"AND", 3), (c!"that", c!"PRON", c!"OBJ", 8),
      (c!"I", c!"PRON", c!"SUBJ", 8), (c!"bring", c!"VERB", c!"CPL", 3), (c!"at", c!"PREP", c!"MARK", 11), (c!"this", c!"DET",
      c!"ART", 11), (c!"weight", c!"NOUN", c!"CPL", 8), (c!"overwhelms", c!"VERB", c!"OBJ", 1), (c!"a", c!"DET", c!"ART", 14),
      (c!"lot", c!"DET", c!"ART", 16), (c!"of", c!"PREP", c!"MARK", 14), (c!"people", c!"NOUN", c!"OBJ", 12), (c!".",
      c!"PUNCT", c!"NODEP", -1)]
    [c!"OTN(i, bring, strength)", c!"NCL(strength, be, brought)", c!"OTN(i, bring, power)", c!"NCL(power, be, brought)",
      c!"OTNTN(i, think, strength, overwhelm, people)", c!"OTNTN(i, think, power, overwhelm, people)",
      c!"NCL(people, be, overwhelmed)"] := by
  decide +kernel

/-- `test_19`: "The hive takes care of itself ." -/
example : Reported
    (pipe (unigrams [(c!"of", 30530, 1630334702793317), (c!"the", 71875, 1271565819802772), (c!"his", 11456, 495291555278982), (c!"this", 4304,
        210816405580285), (c!"thing", 863, 63498917343459), (c!"itself", 266, 60958960649721), (c!"car", 728, 28892007391274),
        (c!"take", 1024, 28257018217839), (c!"taking", 327, 25717061524101), (c!"care", 337, 20319653549907), (c!"cars", 156,
        19049675203038), (c!"takes", 203, 16509718509299), (c!"card", 77, 7937364667932), (c!"cared", 47, 7619870081215),
        (c!"caring", 21, 4762418800759), (c!"hid", 31, 4762418800759), (c!"hives", 31, 4762418800759), (c!"thus", 32,
        4127429627325), (c!"hive", 22, 3809935040608), (c!"thief", 24, 3492440453890), (c!"cares", 23, 2222462107021), (c!"hi",
        14, 1269978346869), (c!"carafe", 3, 634989173435), (c!"thy", 1, 317494586717), (c!"taker", 1, 317494586717),
        (c!"carer", 1, 317494586717), (c!"tho", 1, 317494586717), (c!"carve", 1, 317494586717)])
        [(c!"hid", c!"hide"), (c!"took", c!"take")]
        [(c!"taken", c!"take")]
        []
        []
        []
        [c!"car", c!"card", c!"care", c!"hive", c!"take", c!"thief", c!"thing"]
        [])
    [(c!"The", c!"DET", c!"ART", 1), (c!"hive", c!"NOUN", c!"SUBJ", 2), (c!"takes", c!"VERB", c!"ROOT", -1), (c!"care", c!"FRAG",
      c!"PART", 2), (c!"of", c!"FRAG", c!"PART", 2), (c!"itself", c!"PRON", c!"OBJ", 2), (c!".", c!"PUNCT", c!"NODEP", -1)]
    [c!"NTN(hive, take care of, hive)", c!"NCL(hive, be, taken care of)"] := by
  decide +kernel

/-- `test_20`: "- Why is Robbie 's zipper down ?" -/
example : Reported
    (pipe (unigrams [(c!"is", 7688, 444492421404215), (c!"i", 19918, 231771048303626), (c!"down", 2028, 213673856860741), (c!"if", 3403,
        132395242661113), (c!"why", 588, 26669545284253), (c!"robe", 23, 4444924214042), (c!"robbed", 16, 2857451280456),
        (c!"zip", 6, 1269978346869), (c!"downed", 5, 1269978346869), (c!"zipped", 5, 1269978346869), (c!"robbing", 4,
        1269978346869), (c!"zips", 3, 952483760152), (c!"rob", 12, 952483760152), (c!"zipper", 6, 952483760152), (c!"zippered",
        3, 634989173435), (c!"id", 2, 317494586717), (c!"robber", 2, 317494586717), (c!"zipping", 1, 317494586717)])
        []
        []
        []
        []
        []
        [c!"zip"]
        [])
    [(c!"-", c!"PUNCT", c!"NODEP", -1), (c!"Why", c!"ADV", c!"CPL", 2), (c!"is", c!"VERB", c!"ROOT", -1), (c!"Robbie", c!"PROPN",
      c!"CPL", 5), (c!"'s", c!"PREP", c!"MARK", 3), (c!"zipper", c!"NOUN", c!"SUBJ", 2), (c!"down", c!"ADV", c!"CPL", 2),
      (c!"?", c!"PUNCT", c!"NODEP", -1)]
    [] := by
  decide +kernel

/-- `test_21`: "McCoy immediately ripped off his helmet and was pounding the turf at Hard Rock Stadium as trainers ran out to examine him , though X-rays later were negative ." -/
example : Reported
    (pipe (unigrams [(c!"and", 37063, 2278341154283320), (c!"of", 30530, 1630334702793317), (c!"to", 35422, 1359194325736746), (c!"the", 71875,
        1271565819802772), (c!"a", 35971, 764844459401967), (c!"at", 7935, 724840141475588), (c!"was", 21504, 628639281700247),
        (c!"as", 7530, 584190039559826), (c!"her", 13566, 582602566626239), (c!"by", 3927, 496879028212569), (c!"his", 11456,
        495291555278982), (c!"out", 4616, 385438428274798), (c!"were", 5741, 362896312617870), (c!"him", 5554,
        329876875599271), (c!"he", 15386, 303207330315018), (c!"this", 4304, 210816405580285), (c!"an", 4500, 204466513845939),
        (c!"off", 1564, 193671697897551), (c!"any", 1030, 87628505933974), (c!"way", 1874, 66038874037198), (c!"thing", 863,
        63498917343459), (c!"be", 5363, 49211660941181), (c!"hard", 543, 46036715074008), (c!"later", 669, 43179263793552),
        (c!"boy", 712, 28892007391274), (c!"bad", 352, 25717061524101), (c!"run", 284, 23494599417080), (c!"ran", 257,
        22224621070211), (c!"late", 358, 22224621070211), (c!"bed", 614, 20954642723342), (c!"immediately", 129,
        20954642723342), (c!"best", 413, 16509718509299), (c!"rock", 95, 11429805121823), (c!"wave", 95, 10477321361671),
        (c!"bees", 70, 9842332188236), (c!"bus", 178, 9207343014802), (c!"though", 1207, 5714902560911), (c!"pounds", 42,
        5079913387477), (c!"examined", 34, 5079913387477), (c!"hid", 31, 4762418800759), (c!"thus", 32, 4127429627325),
        (c!"toes", 33, 4127429627325), (c!"pounding", 23, 3809935040608), (c!"ripped", 22, 3809935040608), (c!"hive", 22,
        3809935040608), (c!"negative", 19, 3492440453890), (c!"bay", 36, 3492440453890), (c!"thief", 24, 3492440453890),
        (c!"helmet", 33, 3492440453890), (c!"rocked", 17, 3492440453890), (c!"ad", 18, 3174945867173), (c!"pounded", 21,
        2857451280456), (c!"ripe", 15, 2857451280456), (c!"pound", 13, 2539956693738), (c!"rip", 13, 2222462107021),
        (c!"examining", 10, 2222462107021), (c!"rays", 7, 1904967520304), (c!"ripping", 11, 1587472933586), (c!"stadium", 9,
        1587472933586), (c!"ray", 5, 1269978346869), (c!"latest", 33, 1269978346869), (c!"hi", 14, 1269978346869), (c!"turf",
        7, 1269978346869), (c!"outed", 4, 1269978346869), (c!"latte", 5, 1269978346869), (c!"examine", 15, 952483760152),
        (c!"trainers", 6, 952483760152), (c!"hares", 4, 952483760152), (c!"rips", 4, 952483760152), (c!"hissed", 7,
        952483760152), (c!"turd", 4, 952483760152), (c!"trainer", 3, 952483760152), (c!"wad", 5, 634989173435), (c!"boon", 2,
        634989173435), (c!"hare", 2, 634989173435), (c!"hes", 2, 634989173435), (c!"negatives", 2, 634989173435), (c!"anus", 2,
        634989173435), (c!"examiner", 2, 317494586717), (c!"thy", 1, 317494586717), (c!"latter", 15, 317494586717),
        (c!"lattes", 1, 317494586717), (c!"tho", 1, 317494586717), (c!"pounder", 1, 317494586717), (c!"bon", 1, 317494586717),
        (c!"ripper", 1, 317494586717)])
        [(c!"hid", c!"hide"), (c!"ran", c!"run"), (c!"was", c!"be"), (c!"were", c!"be")]
        [(c!"been", c!"be"), (c!"run", c!"run")]
        []
        [(c!"worse", c!"bad")]
        [(c!"best", c!"good"), (c!"worst", c!"bad")]
        [c!"ad", c!"bed", c!"boy", c!"bus", c!"helmet", c!"hive", c!"pound", c!"ray", c!"rip", c!"rock", c!"run", c!"stadium",
        c!"thief", c!"thing", c!"trainer", c!"turf", c!"wave", c!"way"]
        [c!"bad", c!"hard", c!"late", c!"negative", c!"ripe"])
    [(c!"McCoy", c!"PROPN", c!"SUBJ", 2), (c!"immediately", c!"ADV", c!"CPL", 2), (c!"ripped", c!"VERB", c!"ROOT", -1), (c!"off",
      c!"FRAG", c!"PART", 2), (c!"his", c!"DET", c!"ART", 5), (c!"helmet", c!"NOUN", c!"OBJ", 2), (c!"and", c!"CONJ",
      c!"NODEP", -1), (c!"was", c!"MAT", c!"AUX", 8), (c!"pounding", c!"VERB", c!"AND", 2), (c!"the", c!"DET", c!"ART", 10),
      (c!"turf", c!"NOUN", c!"OBJ", 8), (c!"at", c!"PREP", c!"MARK", 12), (c!"Hard", c!"PROPN", c!"CPL", 2), (c!"Rock",
      c!"PROPN", c!"FLAT", 12), (c!"Stadium", c!"PROPN", c!"FLAT", 13), (c!"as", c!"PREP", c!"MARK", 17), (c!"trainers",
      c!"NOUN", c!"SUBJ", 17), (c!"ran", c!"VERB", c!"CPL", 2), (c!"out", c!"ADV", c!"CPL", 17), (c!"to", c!"FRAG", c!"PART",
      20), (c!"examine", c!"VERB", c!"CPL", 17), (c!"him", c!"PRON", c!"OBJ", 20), (c!",", c!"PUNCT", c!"NODEP", -1),
      (c!"though", c!"CONJ", c!"MARK", 26), (c!"X-rays", c!"NOUN", c!"SUBJ", 26), (c!"later", c!"ADV", c!"CPL", 26), (c!"were",
      c!"VERB", c!"CPL", 20), (c!"negative", c!"ADJ", c!"PROP", 26), (c!".", c!"PUNCT", c!"NODEP", -1)]
    [c!"PTN(mccoy, rip off, helmet)", c!"NCL(helmet, be, ripped off)", c!"OCL(he, be, examined)", c!"PTN(mccoy, pound, turf)",
      c!"NCL(turf, be, pounded)", c!"NI(trainer, run)", c!"NCA(x-ray, be, negative)"] := by
  decide +kernel

/-- `test_22`: "What the Kings did is similar to what happened in 2016 as they 've helped shine a light on an important issue related to race and justice ." -/
example : Reported
    (pipe (unigrams [(c!"and", 37063, 2278341154283320), (c!"in", 22344, 1695421093070363), (c!"to", 35422, 1359194325736746), (c!"the", 71875,
        1271565819802772), (c!"on", 10134, 924544236520767), (c!"a", 35971, 764844459401967), (c!"as", 7530, 584190039559826),
        (c!"is", 7688, 444492421404215), (c!"i", 19918, 231771048303626), (c!"this", 4304, 210816405580285), (c!"an", 4500,
        204466513845939), (c!"they", 5496, 174304528107796), (c!"what", 3463, 134935199354851), (c!"if", 3403,
        132395242661113), (c!"did", 3955, 111123105351054), (c!"any", 1030, 87628505933974), (c!"do", 3670, 66356368623915),
        (c!"thing", 863, 63498917343459), (c!"light", 633, 60958960649721), (c!"does", 940, 45719220487291), (c!"later", 669,
        43179263793552), (c!"died", 362, 25717061524101), (c!"help", 497, 25399566937384), (c!"ones", 174, 24129588590515),
        (c!"late", 358, 22224621070211), (c!"happened", 408, 20002158963190), (c!"helped", 144, 18732180616320),
        (c!"important", 177, 13969761815561), (c!"die", 200, 13652267228844), (c!"similar", 83, 13017278055409), (c!"happens",
        106, 11747299708540), (c!"happen", 181, 10794815948388), (c!"race", 70, 9207343014802), (c!"shining", 37,
        8572353841367), (c!"issues", 41, 8254859254650), (c!"helping", 50, 7619870081215), (c!"related", 44, 7619870081215),
        (c!"happening", 106, 7302375494498), (c!"helps", 34, 6667386321063), (c!"justice", 31, 6349891734346), (c!"issued", 27,
        6032397147629), (c!"dies", 31, 5714902560911), (c!"shiny", 39, 5714902560911), (c!"issue", 57, 5714902560911),
        (c!"racing", 20, 4762418800759), (c!"thus", 32, 4127429627325), (c!"toes", 33, 4127429627325), (c!"king", 60,
        4127429627325), (c!"dive", 17, 3809935040608), (c!"thief", 24, 3492440453890), (c!"shine", 15, 3174945867173), (c!"ad",
        18, 3174945867173), (c!"races", 16, 2857451280456), (c!"relates", 11, 2222462107021), (c!"raced", 21, 1904967520304),
        (c!"shined", 7, 1587472933586), (c!"kings", 6, 1587472933586), (c!"latest", 33, 1269978346869), (c!"shins", 6,
        1269978346869), (c!"issuing", 6, 1269978346869), (c!"latte", 5, 1269978346869), (c!"relate", 5, 952483760152),
        (c!"shin", 3, 634989173435), (c!"lighted", 3, 634989173435), (c!"anus", 2, 634989173435), (c!"thy", 1, 317494586717),
        (c!"latter", 15, 317494586717), (c!"di", 3, 317494586717), (c!"helper", 1, 317494586717), (c!"lattes", 1,
        317494586717), (c!"tho", 1, 317494586717), (c!"id", 2, 317494586717), (c!"shines", 1, 317494586717), (c!"relating", 2,
        317494586717)])
        [(c!"did", c!"do"), (c!"shone", c!"shine")]
        [(c!"done", c!"do"), (c!"shone", c!"shine")]
        []
        []
        []
        [c!"ad", c!"dive", c!"help", c!"issue", c!"justice", c!"king", c!"race", c!"thief", c!"thing", c!"what"]
        [c!"important", c!"late", c!"shiny", c!"similar"])
    [(c!"What", c!"PRON", c!"OBJ", 3), (c!"the", c!"DET", c!"ART", 2), (c!"Kings", c!"PROPN", c!"SUBJ", 3), (c!"did", c!"VERB",
      c!"SUBJ", 4), (c!"is", c!"VERB", c!"ROOT", -1), (c!"similar", c!"ADJ", c!"PROP", 4), (c!"to", c!"PREP", c!"MARK", 8),
      (c!"what", c!"PRON", c!"SUBJ", 8), (c!"happened", c!"VERB", c!"CPL", 5), (c!"in", c!"PREP", c!"MARK", 10), (c!"2016",
      c!"NUM", c!"CPL", 8), (c!"as", c!"PREP", c!"MARK", 14), (c!"they", c!"PRON", c!"SUBJ", 14), (c!"'ve", c!"MAT", c!"AUX",
      14), (c!"helped", c!"VERB", c!"CPL", 4), (c!"shine", c!"VERB", c!"OBJ", 14), (c!"a", c!"DET", c!"ART", 17), (c!"light",
      c!"NOUN", c!"OBJ", 15), (c!"on", c!"PREP", c!"MARK", 21), (c!"an", c!"DET", c!"ART", 21), (c!"important", c!"ADJ",
      c!"CPL", 21), (c!"issue", c!"NOUN", c!"CPL", 17), (c!"related", c!"ADJ", c!"CPL", 21), (c!"to", c!"PREP", c!"MARK", 24),
      (c!"race", c!"NOUN", c!"CPL", 22), (c!"and", c!"CONJ", c!"NODEP", -1), (c!"justice", c!"NOUN", c!"AND", 24), (c!".",
      c!"PUNCT", c!"NODEP", -1)]
    [c!"OTOTN(they, help, they, shine, light)", c!"PTO(kings, do, what)", c!"OCL(what, be, done)", c!"OI(what, happen)",
      c!"NCL(light, be, shone)", c!"NCA(issue, be, important)", c!"NCL(issue, be, related)"] := by
  decide +kernel

/-- `test_23`: "She broke into the safe and took the money and gold that was stored in there ." -/
example : Reported
    (pipe (unigrams [(c!"and", 37063, 2278341154283320), (c!"in", 22344, 1695421093070363), (c!"the", 71875, 1271565819802772), (c!"that", 18046,
        1068686778890420), (c!"was", 21504, 628639281700247), (c!"by", 3927, 496879028212569), (c!"into", 3370,
        394963265876317), (c!"she", 11882, 253995669373837), (c!"this", 4304, 210816405580285), (c!"an", 4500,
        204466513845939), (c!"there", 3476, 164144701332842), (c!"any", 1030, 87628505933974), (c!"way", 1874, 66038874037198),
        (c!"thing", 863, 63498917343459), (c!"took", 1059, 49529155527898), (c!"be", 5363, 49211660941181), (c!"money", 397,
        36511877472489), (c!"say", 1457, 31431964085012), (c!"boy", 712, 28892007391274), (c!"take", 1024, 28257018217839),
        (c!"story", 522, 26034556110818), (c!"stories", 176, 25717061524101), (c!"bad", 352, 25717061524101), (c!"taking", 327,
        25717061524101), (c!"bed", 614, 20954642723342), (c!"shoes", 160, 17462202269451), (c!"broke", 107, 17144707682734),
        (c!"sad", 143, 16827213096017), (c!"takes", 203, 16509718509299), (c!"best", 413, 16509718509299), (c!"gold", 105,
        16192223922582), (c!"safe", 117, 15239740162430), (c!"store", 149, 14287256402278), (c!"break", 168, 13969761815561),
        (c!"wave", 95, 10477321361671), (c!"bees", 70, 9842332188236), (c!"bus", 178, 9207343014802), (c!"save", 108,
        8254859254650), (c!"shy", 44, 6984880907781), (c!"stores", 35, 6984880907781), (c!"shed", 40, 6667386321063),
        (c!"shoe", 43, 6349891734346), (c!"stored", 24, 4762418800759), (c!"thus", 32, 4127429627325), (c!"bay", 36,
        3492440453890), (c!"thief", 24, 3492440453890), (c!"golf", 23, 2857451280456), (c!"safer", 8, 2222462107021),
        (c!"shove", 17, 1904967520304), (c!"shave", 7, 1587472933586), (c!"storing", 4, 952483760152), (c!"wad", 5,
        634989173435), (c!"boon", 2, 634989173435), (c!"shied", 2, 634989173435), (c!"safest", 3, 634989173435), (c!"anus", 2,
        634989173435), (c!"broker", 3, 634989173435), (c!"thy", 1, 317494586717), (c!"taker", 1, 317494586717), (c!"shod", 1,
        317494586717), (c!"tho", 1, 317494586717), (c!"sha", 2, 317494586717), (c!"bon", 1, 317494586717), (c!"shes", 1,
        317494586717), (c!"shoed", 1, 317494586717), (c!"storied", 1, 317494586717)])
        [(c!"broke", c!"break"), (c!"said", c!"say"), (c!"shed", c!"shed"), (c!"shod", c!"shoe"), (c!"took", c!"take"), (c!"was",
        c!"be"), (c!"were", c!"be")]
        [(c!"been", c!"be"), (c!"broken", c!"break"), (c!"said", c!"say"), (c!"shed", c!"shed"), (c!"shod", c!"shoe"), (c!"taken",
        c!"take")]
        []
        [(c!"worse", c!"bad")]
        [(c!"best", c!"good"), (c!"worst", c!"bad")]
        [c!"bed", c!"boy", c!"break", c!"bus", c!"golf", c!"money", c!"shed", c!"shoe", c!"store", c!"story", c!"take", c!"thief",
        c!"thing", c!"wave", c!"way"]
        [c!"bad", c!"gold", c!"sad", c!"safe", c!"shod", c!"shy"])
    [(c!"She", c!"PROPN", c!"SUBJ", 1), (c!"broke", c!"VERB", c!"ROOT", -1), (c!"into", c!"FRAG", c!"PART", 1), (c!"the", c!"DET",
      c!"ART", 4), (c!"safe", c!"NOUN", c!"OBJ", 1), (c!"and", c!"CONJ", c!"NODEP", -1), (c!"took", c!"VERB", c!"AND", 1),
      (c!"the", c!"DET", c!"ART", 8), (c!"money", c!"NOUN", c!"OBJ", 6), (c!"and", c!"CONJ", c!"NODEP", -1), (c!"gold",
      c!"NOUN", c!"AND", 8), (c!"that", c!"PRON", c!"SUBJ", 12), (c!"was", c!"VERB", c!"CPL", 8), (c!"stored", c!"ADJ",
      c!"PROP", 12), (c!"in", c!"PREP", c!"MARK", 15), (c!"there", c!"ADV", c!"CPL", 13), (c!".", c!"PUNCT", c!"NODEP", -1)]
    [c!"PTN(she, break into, safe)", c!"NCL(safe, be, broken into)", c!"PTN(she, take, money)", c!"NCL(money, be, taken)",
      c!"PTN(she, take, gold)", c!"NCL(gold, be, taken)", c!"NCL(money, be, stored)", c!"NCL(gold, be, stored)"] := by
  decide +kernel

/-- `test_24`: "" Because used-car dealers are doing well , I guess that implies they continue to be rivals of used-car operations of new-car dealerships . "" -/
example : Reported
    (pipe (unigrams [(c!"of", 30530, 1630334702793317), (c!"to", 35422, 1359194325736746), (c!"the", 71875, 1271565819802772), (c!"that", 18046,
        1068686778890420), (c!"by", 3927, 496879028212569), (c!"i", 19918, 231771048303626), (c!"are", 3167, 223516189048977),
        (c!"they", 5496, 174304528107796), (c!"because", 1534, 95883365188624), (c!"do", 3670, 66356368623915), (c!"be", 5363,
        49211660941181), (c!"does", 940, 45719220487291), (c!"well", 653, 37464361232641), (c!"doing", 473, 28892007391274),
        (c!"boy", 712, 28892007391274), (c!"car", 728, 28892007391274), (c!"bad", 352, 25717061524101), (c!"bed", 614,
        20954642723342), (c!"best", 413, 16509718509299), (c!"continued", 175, 15557234749148), (c!"bees", 70, 9842332188236),
        (c!"bus", 178, 9207343014802), (c!"card", 77, 7937364667932), (c!"cared", 47, 7619870081215), (c!"continues", 32,
        5714902560911), (c!"continue", 56, 5397407974194), (c!"operation", 37, 5397407974194), (c!"guess", 143, 4444924214042),
        (c!"toes", 33, 4127429627325), (c!"operations", 15, 3809935040608), (c!"bay", 36, 3492440453890), (c!"rival", 12,
        3492440453890), (c!"dealer", 22, 3174945867173), (c!"guessed", 37, 2857451280456), (c!"implied", 9, 2222462107021),
        (c!"cares", 23, 2222462107021), (c!"dealers", 15, 2222462107021), (c!"continuing", 8, 1904967520304), (c!"continuous",
        8, 1587472933586), (c!"rivals", 6, 1269978346869), (c!"implies", 7, 952483760152), (c!"imply", 5, 952483760152),
        (c!"weld", 3, 952483760152), (c!"dealership", 7, 634989173435), (c!"boon", 2, 634989173435), (c!"dealerships", 2,
        634989173435), (c!"guesses", 2, 634989173435), (c!"dove", 3, 634989173435), (c!"id", 2, 317494586717), (c!"bon", 1,
        317494586717)])
        [(c!"did", c!"do"), (c!"was", c!"be"), (c!"were", c!"be")]
        [(c!"been", c!"be"), (c!"done", c!"do")]
        []
        [(c!"worse", c!"bad")]
        [(c!"best", c!"good"), (c!"worst", c!"bad")]
        [c!"bed", c!"boy", c!"bus", c!"car", c!"card", c!"dealer", c!"dealership", c!"operation", c!"rival"]
        [c!"bad"])
    [(c!"\"", c!"PUNCT", c!"NODEP", -1), (c!"Because", c!"CONJ", c!"MARK", 5), (c!"used-car", c!"NOUN", c!"CPL", 3), (c!"dealers",
      c!"NOUN", c!"SUBJ", 5), (c!"are", c!"MAT", c!"AUX", 5), (c!"doing", c!"VERB", c!"CPL", 9), (c!"well", c!"ADV", c!"CPL",
      5), (c!",", c!"PUNCT", c!"NODEP", -1), (c!"I", c!"PRON", c!"SUBJ", 9), (c!"guess", c!"VERB", c!"ROOT", -1), (c!"that",
      c!"PRON", c!"SUBJ", 11), (c!"implies", c!"VERB", c!"OBJ", 9), (c!"they", c!"PRON", c!"SUBJ", 13), (c!"continue",
      c!"VERB", c!"OBJ", 11), (c!"to", c!"FRAG", c!"PART", 15), (c!"be", c!"VERB", c!"OBJ", 13), (c!"rivals", c!"NOUN",
      c!"PROP", 15), (c!"of", c!"PREP", c!"MARK", 19), (c!"used-car", c!"NOUN", c!"CPL", 19), (c!"operations", c!"NOUN",
      c!"CPL", 16), (c!"of", c!"PREP", c!"MARK", 22), (c!"new-car", c!"NOUN", c!"CPL", 22), (c!"dealerships", c!"NOUN",
      c!"CPL", 19), (c!".", c!"PUNCT", c!"NODEP", -1), (c!"\"", c!"PUNCT", c!"NODEP", -1)]
    [c!"OTOCN(they, continue, they, be, rival)"] := by
  decide +kernel

/-- `test_25`: "People on systems like Facebook are increasingly forming into ' echo chambers ' of those who think alike ." -/
example : Reported
    (pipe (unigrams [(c!"of", 30530, 1630334702793317), (c!"on", 10134, 924544236520767), (c!"into", 3370, 394963265876317), (c!"like", 3957,
        250185734333230), (c!"are", 3167, 223516189048977), (c!"who", 3630, 206053986779525), (c!"people", 1975,
        134300210181416), (c!"those", 839, 59688982302852), (c!"think", 1262, 24764577763949), (c!"ones", 174, 24129588590515),
        (c!"system", 161, 21907126483493), (c!"form", 144, 21272137310059), (c!"liked", 303, 12064794295257),
        (c!"increasingly", 65, 10159826774953), (c!"formed", 47, 9524837601519), (c!"systems", 40, 8889848428084), (c!"forms",
        46, 8572353841367), (c!"former", 206, 7619870081215), (c!"alike", 17, 5397407974194), (c!"likes", 56, 4762418800759),
        (c!"forming", 17, 4444924214042), (c!"echo", 22, 4127429627325), (c!"echoed", 19, 3809935040608), (c!"chamber", 14,
        3174945867173), (c!"liking", 10, 3174945867173), (c!"echoes", 7, 1904967520304), (c!"peoples", 5, 952483760152),
        (c!"systemic", 5, 952483760152), (c!"chambers", 3, 634989173435)])
        [(c!"thought", c!"think")]
        [(c!"thought", c!"think")]
        [(c!"people", c!"people")]
        []
        []
        [c!"chamber", c!"form", c!"like", c!"people", c!"system"]
        [c!"former"])
    [(c!"People", c!"NOUN", c!"SUBJ", 7), (c!"on", c!"PREP", c!"MARK", 2), (c!"systems", c!"NOUN", c!"CPL", 0), (c!"like",
      c!"PREP", c!"MARK", 4), (c!"Facebook", c!"PROPN", c!"CPL", 2), (c!"are", c!"MAT", c!"AUX", 7), (c!"increasingly",
      c!"ADV", c!"CPL", 7), (c!"forming", c!"VERB", c!"ROOT", -1), (c!"into", c!"PREP", c!"MARK", 11), (c!"'", c!"PUNCT",
      c!"NODEP", -1), (c!"echo", c!"NOUN", c!"CPL", 11), (c!"chambers", c!"NOUN", c!"CPL", 7), (c!"'", c!"CONJ", c!"NODEP",
      -1), (c!"of", c!"PREP", c!"MARK", 14), (c!"those", c!"PRON", c!"CPL", 11), (c!"who", c!"PRON", c!"SUBJ", 16), (c!"think",
      c!"VERB", c!"CPL", 14), (c!"alike", c!"ADV", c!"CPL", 16), (c!".", c!"PUNCT", c!"NODEP", -1)]
    [c!"NI(people, form)", c!"OI(those, think)"] := by
  decide +kernel

/-- `test_26`: "I was looking for a strip joint and wandered into a Writers Guild meeting by mistake ." -/
example : Reported
    (pipe (unigrams [(c!"and", 37063, 2278341154283320), (c!"for", 9169, 838820698107097), (c!"a", 35971, 764844459401967), (c!"was", 21504,
        628639281700247), (c!"by", 3927, 496879028212569), (c!"into", 3370, 394963265876317), (c!"i", 19918, 231771048303626),
        (c!"an", 4500, 204466513845939), (c!"any", 1030, 87628505933974), (c!"way", 1874, 66038874037198), (c!"looked", 1184,
        55561552675527), (c!"look", 934, 53656585155223), (c!"be", 5363, 49211660941181), (c!"looking", 622, 44766736727139),
        (c!"four", 428, 35559393712337), (c!"boy", 712, 28892007391274), (c!"take", 1024, 28257018217839), (c!"bad", 352,
        25717061524101), (c!"taking", 327, 25717061524101), (c!"bed", 614, 20954642723342), (c!"looks", 254, 19367169789755),
        (c!"meeting", 161, 19367169789755), (c!"takes", 203, 16509718509299), (c!"best", 413, 16509718509299), (c!"wave", 95,
        10477321361671), (c!"bees", 70, 9842332188236), (c!"bus", 178, 9207343014802), (c!"mistake", 83, 9207343014802),
        (c!"meet", 184, 8254859254650), (c!"writer", 71, 6667386321063), (c!"strip", 40, 6349891734346), (c!"wandering", 31,
        6032397147629), (c!"wandered", 43, 5714902560911), (c!"writers", 26, 5397407974194), (c!"stripped", 28, 5397407974194),
        (c!"mistakes", 22, 4762418800759), (c!"striped", 23, 4444924214042), (c!"wander", 20, 3492440453890), (c!"bay", 36,
        3492440453890), (c!"ad", 18, 3174945867173), (c!"stripes", 13, 3174945867173), (c!"joint", 17, 2857451280456),
        (c!"meets", 14, 1904967520304), (c!"wanders", 6, 634989173435), (c!"wad", 5, 634989173435), (c!"boon", 2,
        634989173435), (c!"mistaking", 4, 634989173435), (c!"looker", 2, 634989173435), (c!"anus", 2, 634989173435),
        (c!"taker", 1, 317494586717), (c!"guile", 1, 317494586717), (c!"id", 2, 317494586717), (c!"bon", 1, 317494586717),
        (c!"wanderer", 1, 317494586717)])
        [(c!"met", c!"meet"), (c!"mistook", c!"mistake"), (c!"took", c!"take"), (c!"was", c!"be"), (c!"were", c!"be")]
        [(c!"been", c!"be"), (c!"met", c!"meet"), (c!"mistaken", c!"mistake"), (c!"taken", c!"take")]
        []
        [(c!"worse", c!"bad")]
        [(c!"best", c!"good"), (c!"worst", c!"bad")]
        [c!"ad", c!"bed", c!"boy", c!"bus", c!"for", c!"joint", c!"look", c!"meeting", c!"mistake", c!"strip", c!"take", c!"wave",
        c!"way", c!"writer"]
        [c!"bad"])
    [(c!"I", c!"PRON", c!"SUBJ", 2), (c!"was", c!"MAT", c!"AUX", 2), (c!"looking", c!"VERB", c!"ROOT", -1), (c!"for", c!"FRAG",
      c!"PART", 2), (c!"a", c!"DET", c!"ART", 6), (c!"strip", c!"NOUN", c!"CPL", 6), (c!"joint", c!"NOUN", c!"OBJ", 2),
      (c!"and", c!"CONJ", c!"NODEP", -1), (c!"wandered", c!"VERB", c!"AND", 2), (c!"into", c!"PREP", c!"MARK", 13), (c!"a",
      c!"DET", c!"ART", 13), (c!"Writers", c!"PROPN", c!"CPL", 13), (c!"Guild", c!"PROPN", c!"FLAT", 11), (c!"meeting",
      c!"NOUN", c!"CPL", 8), (c!"by", c!"PREP", c!"MARK", 15), (c!"mistake", c!"NOUN", c!"CPL", 8), (c!".", c!"PUNCT",
      c!"NODEP", -1)]
    [c!"OTN(i, look for, strip joint)", c!"NCL(strip joint, be, looked for)", c!"OI(i, wander)"] := by
  decide +kernel

/-- `test_27`: "I heard myself screaming ." -/
example : Reported
    (pipe (unigrams [(c!"i", 19918, 231771048303626), (c!"myself", 386, 65086390277046), (c!"heard", 582, 16827213096017), (c!"hear", 425,
        11747299708540), (c!"hearing", 80, 11747299708540), (c!"screaming", 56, 8572353841367), (c!"screamed", 46,
        6667386321063), (c!"scream", 41, 5079913387477), (c!"screams", 30, 4762418800759), (c!"hears", 44, 2539956693738),
        (c!"id", 2, 317494586717), (c!"screamy", 1, 317494586717)])
        [(c!"heard", c!"hear")]
        [(c!"heard", c!"hear")]
        []
        []
        []
        [c!"hearing", c!"scream", c!"screaming"]
        [])
    [(c!"I", c!"PRON", c!"SUBJ", 1), (c!"heard", c!"VERB", c!"ROOT", -1), (c!"myself", c!"PRON", c!"SUBJ", 3), (c!"screaming",
      c!"VERB", c!"OBJ", 1), (c!".", c!"PUNCT", c!"NODEP", -1)]
    [c!"OTOI(i, hear, i, scream)"] := by
  decide +kernel

/-- `test_28`: "According to Daily Maverick , they were later allowed into the Mandela home by the Mandela family , but could not visit the gravesite as the appropriate rituals had not been performed ." -/
example : Reported
    (pipe (unigrams [(c!"to", 35422, 1359194325736746), (c!"the", 71875, 1271565819802772), (c!"a", 35971, 764844459401967), (c!"as", 7530,
        584190039559826), (c!"by", 3927, 496879028212569), (c!"had", 12282, 461002139913514), (c!"into", 3370,
        394963265876317), (c!"were", 5741, 362896312617870), (c!"but", 5597, 245105820945753), (c!"this", 4304,
        210816405580285), (c!"they", 5496, 174304528107796), (c!"could", 3909, 136840166875155), (c!"has", 2119,
        136522672288437), (c!"not", 5823, 129220296793940), (c!"have", 4899, 127950318447070), (c!"thing", 863,
        63498917343459), (c!"home", 996, 57784014782548), (c!"be", 5363, 49211660941181), (c!"later", 669, 43179263793552),
        (c!"family", 714, 33654426192033), (c!"having", 426, 31431964085012), (c!"boy", 712, 28892007391274), (c!"been", 3700,
        27622029044405), (c!"bad", 352, 25717061524101), (c!"late", 358, 22224621070211), (c!"bed", 614, 20954642723342),
        (c!"best", 413, 16509718509299), (c!"visit", 224, 12699783468692), (c!"allowed", 128, 12064794295257), (c!"visited",
        131, 10477321361671), (c!"noted", 87, 10159826774953), (c!"bees", 70, 9842332188236), (c!"bus", 178, 9207343014802),
        (c!"notes", 54, 9207343014802), (c!"families", 66, 7619870081215), (c!"daily", 44, 7619870081215), (c!"performed", 42,
        6984880907781), (c!"homes", 42, 6349891734346), (c!"allow", 75, 5714902560911), (c!"appropriate", 23, 4444924214042),
        (c!"performing", 22, 4444924214042), (c!"thus", 32, 4127429627325), (c!"toes", 33, 4127429627325), (c!"according", 89,
        3809935040608), (c!"perform", 34, 3809935040608), (c!"allowing", 27, 3809935040608), (c!"bay", 36, 3492440453890),
        (c!"thief", 24, 3492440453890), (c!"ritual", 18, 3174945867173), (c!"ad", 18, 3174945867173), (c!"allows", 17,
        2857451280456), (c!"rituals", 10, 2222462107021), (c!"butt", 9, 1904967520304), (c!"latest", 33, 1269978346869),
        (c!"hay", 4, 1269978346869), (c!"latte", 5, 1269978346869), (c!"performer", 5, 952483760152), (c!"performs", 5,
        952483760152), (c!"accord", 3, 634989173435), (c!"boon", 2, 634989173435), (c!"thy", 1, 317494586717), (c!"ha", 8,
        317494586717), (c!"latter", 15, 317494586717), (c!"ritually", 1, 317494586717), (c!"coulis", 1, 317494586717),
        (c!"lattes", 1, 317494586717), (c!"tho", 1, 317494586717), (c!"bon", 1, 317494586717), (c!"appropriated", 3,
        317494586717), (c!"butted", 1, 317494586717), (c!"homed", 1, 317494586717), (c!"dailies", 1, 317494586717),
        (c!"buttes", 1, 317494586717)])
        [(c!"had", c!"have"), (c!"was", c!"be"), (c!"were", c!"be")]
        [(c!"been", c!"be"), (c!"had", c!"have")]
        []
        [(c!"worse", c!"bad")]
        [(c!"best", c!"good"), (c!"worst", c!"bad")]
        [c!"ad", c!"bed", c!"boy", c!"bus", c!"butt", c!"family", c!"home", c!"performer", c!"ritual", c!"thief", c!"thing", c!"visit"]
        [c!"appropriate", c!"bad", c!"daily", c!"late"])
    [(c!"According", c!"PREP", c!"MARK", 2), (c!"to", c!"PREP", c!"FLAT", 0), (c!"Daily", c!"PROPN", c!"CPL", 6), (c!"Maverick",
      c!"PROPN", c!"FLAT", 2), (c!",", c!"PUNCT", c!"NODEP", -1), (c!"they", c!"PRON", c!"SUBJ", 6), (c!"were", c!"VERB",
      c!"ROOT", -1), (c!"later", c!"ADV", c!"CPL", 8), (c!"allowed", c!"ADJ", c!"PROP", 6), (c!"into", c!"PREP", c!"MARK", 12),
      (c!"the", c!"DET", c!"ART", 12), (c!"Mandela", c!"PROPN", c!"CPL", 12), (c!"home", c!"NOUN", c!"CPL", 8), (c!"by",
      c!"PREP", c!"MARK", 16), (c!"the", c!"DET", c!"ART", 16), (c!"Mandela", c!"PROPN", c!"CPL", 16), (c!"family", c!"NOUN",
      c!"CPL", 8), (c!",", c!"PUNCT", c!"NODEP", -1), (c!"but", c!"CONJ", c!"MARK", 21), (c!"could", c!"MAT", c!"MODAL", 21),
      (c!"not", c!"ADV", c!"NEG", 21), (c!"visit", c!"VERB", c!"CPL", 6), (c!"the", c!"DET", c!"ART", 23), (c!"gravesite",
      c!"NOUN", c!"OBJ", 21), (c!"as", c!"PREP", c!"MARK", 30), (c!"the", c!"DET", c!"ART", 27), (c!"appropriate", c!"ADJ",
      c!"CPL", 27), (c!"rituals", c!"NOUN", c!"SUBJ", 30), (c!"had", c!"MAT", c!"AUX", 30), (c!"not", c!"ADV", c!"NEG", 30),
      (c!"been", c!"VERB", c!"CPL", 21), (c!"performed", c!"ADJ", c!"PROP", 30), (c!".", c!"PUNCT", c!"NODEP", -1)]
    [c!"OCL(they, be, allowed)", c!"NTO(mandela family, allow, they)", c!"OTN(they, NOT visit, gravesite)",
      c!"NCL(gravesite, NOT be, visited)", c!"NCA(ritual, be, appropriate)", c!"NCL(ritual, NOT be, performed)"] := by
  decide +kernel

/-- `test_29`: "We liked the name Alphabet because it means a collection of letters that represent language , one of humanity 's most important innovations , and is the core of how we index with Google search !" -/
example : Reported
    (pipe (unigrams [(c!"and", 37063, 2278341154283320), (c!"of", 30530, 1630334702793317), (c!"the", 71875, 1271565819802772), (c!"that", 18046,
        1068686778890420), (c!"on", 10134, 924544236520767), (c!"with", 9893, 891842294088886), (c!"a", 35971,
        764844459401967), (c!"was", 21504, 628639281700247), (c!"it", 13181, 552758075474813), (c!"is", 7688, 444492421404215),
        (c!"like", 3957, 250185734333230), (c!"i", 19918, 231771048303626), (c!"one", 4182, 225738651155998), (c!"this", 4304,
        210816405580285), (c!"an", 4500, 204466513845939), (c!"if", 3403, 132395242661113), (c!"we", 3216, 119060470018986),
        (c!"because", 1534, 95883365188624), (c!"any", 1030, 87628505933974), (c!"how", 1775, 75563711638717), (c!"way", 1874,
        66038874037198), (c!"thing", 863, 63498917343459), (c!"most", 869, 47306693420877), (c!"woman", 1202, 46671704247443),
        (c!"named", 250, 36194382885772), (c!"name", 733, 26352050697536), (c!"ones", 174, 24129588590515), (c!"language", 133,
        21907126483493), (c!"names", 152, 17779696856169), (c!"present", 123, 14922245575713), (c!"important", 177,
        13969761815561), (c!"mean", 494, 13652267228844), (c!"letters", 72, 13017278055409), (c!"wo", 191, 12382288881975),
        (c!"liked", 303, 12064794295257), (c!"meaning", 90, 11112310535105), (c!"means", 145, 11112310535105), (c!"letter",
        121, 10477321361671), (c!"wave", 95, 10477321361671), (c!"won", 82, 9524837601519), (c!"presented", 47, 8572353841367),
        (c!"search", 67, 7619870081215), (c!"collection", 53, 7619870081215), (c!"west", 41, 6984880907781), (c!"core", 40,
        5714902560911), (c!"humanity", 32, 5714902560911), (c!"likes", 56, 4762418800759), (c!"cord", 25, 4127429627325),
        (c!"thus", 32, 4127429627325), (c!"weed", 17, 4127429627325), (c!"languages", 23, 3809935040608), (c!"naming", 19,
        3492440453890), (c!"wing", 23, 3492440453890), (c!"searched", 44, 3492440453890), (c!"represent", 26, 3492440453890),
        (c!"thief", 24, 3492440453890), (c!"represented", 17, 3492440453890), (c!"index", 19, 3174945867173), (c!"liking", 10,
        3174945867173), (c!"ad", 18, 3174945867173), (c!"collective", 23, 1904967520304), (c!"innovations", 6, 1904967520304),
        (c!"searches", 9, 1587472933586), (c!"cores", 6, 1269978346869), (c!"alphabet", 9, 952483760152), (c!"woes", 4,
        952483760152), (c!"lettering", 4, 952483760152), (c!"wove", 6, 634989173435), (c!"wad", 5, 634989173435), (c!"courier",
        2, 634989173435), (c!"anus", 2, 634989173435), (c!"thy", 1, 317494586717), (c!"innovation", 2, 317494586717), (c!"woe",
        3, 317494586717), (c!"cored", 1, 317494586717), (c!"meanest", 1, 317494586717), (c!"tho", 1, 317494586717), (c!"id", 2,
        317494586717), (c!"lettered", 1, 317494586717), (c!"meanie", 2, 317494586717), (c!"googly", 1, 317494586717)])
        [(c!"meant", c!"mean"), (c!"was", c!"be"), (c!"won", c!"win"), (c!"wove", c!"weave")]
        [(c!"meant", c!"mean"), (c!"won", c!"win")]
        []
        []
        []
        [c!"ad", c!"collection", c!"cord", c!"core", c!"courier", c!"humanity", c!"index", c!"innovation", c!"language", c!"letter",
        c!"like", c!"meaning", c!"most", c!"name", c!"present", c!"search", c!"thief", c!"thing", c!"wave", c!"way", c!"west",
        c!"wing", c!"wo", c!"woman"]
        [c!"collective", c!"important"])
    [(c!"We", c!"PRON", c!"SUBJ", 1), (c!"liked", c!"VERB", c!"ROOT", -1), (c!"the", c!"DET", c!"ART", 3), (c!"name", c!"NOUN",
      c!"OBJ", 1), (c!"Alphabet", c!"PROPN", c!"CPL", 3), (c!"because", c!"CONJ", c!"MARK", 7), (c!"it", c!"PRON", c!"SUBJ",
      7), (c!"means", c!"VERB", c!"CPL", 1), (c!"a", c!"DET", c!"ART", 9), (c!"collection", c!"NOUN", c!"OBJ", 7), (c!"of",
      c!"PREP", c!"MARK", 11), (c!"letters", c!"NOUN", c!"CPL", 9), (c!"that", c!"PRON", c!"SUBJ", 13), (c!"represent",
      c!"VERB", c!"CPL", 11), (c!"language", c!"NOUN", c!"OBJ", 13), (c!",", c!"PUNCT", c!"NODEP", -1), (c!"one", c!"PRON",
      c!"CPL", 14), (c!"of", c!"PREP", c!"MARK", 22), (c!"humanity", c!"NOUN", c!"CPL", 22), (c!"'s", c!"PREP", c!"MARK", 18),
      (c!"most", c!"ADV", c!"CPL", 21), (c!"important", c!"ADJ", c!"CPL", 22), (c!"innovations", c!"NOUN", c!"CPL", 16),
      (c!",", c!"PUNCT", c!"NODEP", -1), (c!"and", c!"CONJ", c!"NODEP", -1), (c!"is", c!"VERB", c!"AND", 7), (c!"the", c!"DET",
      c!"ART", 27), (c!"core", c!"NOUN", c!"PROP", 25), (c!"of", c!"PREP", c!"MARK", 29), (c!"how", c!"ADV", c!"CPL", 27),
      (c!"we", c!"PRON", c!"SUBJ", 31), (c!"index", c!"VERB", c!"CPL", 29), (c!"with", c!"PREP", c!"MARK", 34), (c!"Google",
      c!"PROPN", c!"CPL", 34), (c!"search", c!"NOUN", c!"CPL", 31), (c!"!", c!"PUNCT", c!"NODEP", -1)]
    [c!"OTN(we, like, name)", c!"NCL(name, be, liked)", c!"OTN(it, mean, collection)", c!"NCL(collection, be, meant)",
      c!"NTN(letter, represent, language)", c!"NCL(language, be, represented)", c!"NCA(innovation, be, important)",
      c!"OI(we, index)"] := by
  decide +kernel

/-- `test_30`: "Is the world safer , or at greater risk than it was a year ago ?" -/
example : Reported
    (pipe (unigrams [(c!"the", 71875, 1271565819802772), (c!"a", 35971, 764844459401967), (c!"at", 7935, 724840141475588), (c!"was", 21504,
        628639281700247), (c!"it", 13181, 552758075474813), (c!"or", 4243, 519421143869497), (c!"by", 3927, 496879028212569),
        (c!"is", 7688, 444492421404215), (c!"i", 19918, 231771048303626), (c!"this", 4304, 210816405580285), (c!"than", 1694,
        147634982823543), (c!"if", 3403, 132395242661113), (c!"our", 1256, 106678181137012), (c!"way", 1874, 66038874037198),
        (c!"thing", 863, 63498917343459), (c!"be", 5363, 49211660941181), (c!"world", 724, 29526996564709), (c!"boy", 712,
        28892007391274), (c!"bad", 352, 25717061524101), (c!"great", 362, 22542115656928), (c!"bed", 614, 20954642723342),
        (c!"year", 629, 18097191442886), (c!"best", 413, 16509718509299), (c!"safe", 117, 15239740162430), (c!"wave", 95,
        10477321361671), (c!"ago", 364, 9842332188236), (c!"bees", 70, 9842332188236), (c!"bus", 178, 9207343014802),
        (c!"greater", 46, 8889848428084), (c!"risk", 75, 7937364667932), (c!"thus", 32, 4127429627325), (c!"bay", 36,
        3492440453890), (c!"thief", 24, 3492440453890), (c!"ad", 18, 3174945867173), (c!"safer", 8, 2222462107021),
        (c!"greatest", 25, 1904967520304), (c!"risked", 7, 1904967520304), (c!"wad", 5, 634989173435), (c!"boon", 2,
        634989173435), (c!"safest", 3, 634989173435), (c!"thy", 1, 317494586717), (c!"tho", 1, 317494586717), (c!"id", 2,
        317494586717), (c!"bon", 1, 317494586717)])
        [(c!"was", c!"be"), (c!"were", c!"be")]
        [(c!"been", c!"be")]
        []
        [(c!"worse", c!"bad")]
        [(c!"best", c!"good"), (c!"worst", c!"bad")]
        [c!"ad", c!"bed", c!"boy", c!"bus", c!"risk", c!"thief", c!"thing", c!"wave", c!"way", c!"world", c!"year"]
        [c!"bad", c!"great", c!"safe"])
    [(c!"Is", c!"VERB", c!"ROOT", -1), (c!"the", c!"DET", c!"ART", 2), (c!"world", c!"NOUN", c!"SUBJ", 0), (c!"safer", c!"ADJ",
      c!"PROP", 0), (c!",", c!"PUNCT", c!"NODEP", -1), (c!"or", c!"CONJ", c!"NODEP", -1), (c!"at", c!"PREP", c!"MARK", 8),
      (c!"greater", c!"ADJ", c!"CPL", 8), (c!"risk", c!"NOUN", c!"OR", 3), (c!"than", c!"CONJ", c!"CMARK", 11), (c!"it",
      c!"PRON", c!"SUBJ", 11), (c!"was", c!"VERB", c!"CPL", 3), (c!"a", c!"DET", c!"ART", 13), (c!"year", c!"NOUN", c!"CPL",
      11), (c!"ago", c!"ADV", c!"CPL", 13), (c!"?", c!"PUNCT", c!"NODEP", -1)]
    [c!"NCA(world, be, safe)", c!"NCA(risk, be, great)"] := by
  decide +kernel

end Tests
