import Verif.Model.Files
import Verif.Model.Normalization

/-! The tables of irregular forms shipped in `scrappybara/data/english`, line by line, and the lemmatizer and the table of
the inflector that `LogicPipeline.__init__` makes of them. -/

namespace Model
open Py

/-- The lines of `data/english/irregular_preterits.txt`:1-175 -/
def irregularPreteritsLines : List Str :=
  [c!"abode\tabide", c!"arose\tarise", c!"ate\teat", c!"awoke\tawake", c!"beat\tbeat", c!"became\tbecome",
   c!"befell\tbefall", c!"began\tbegin", c!"begot\tbeget", c!"beheld\tbehold", c!"bent\tbend",
   c!"bereft\tbereave", c!"beset\tbeset", c!"besought\tbeseech", c!"bespoke\tbespeak", c!"bestrode\tbestride",
   c!"bet\tbet", c!"bid\tbid", c!"bit\tbite", c!"bled\tbleed", c!"blew\tblow", c!"bore\tbear", c!"bought\tbuy",
   c!"bound\tbind", c!"bred\tbreed", c!"broke\tbreak", c!"brought\tbring", c!"built\tbuild", c!"burnt\tburn",
   c!"burst\tburst", c!"came\tcome", c!"cast\tcast", c!"caught\tcatch", c!"chose\tchoose", c!"clung\tcling",
   c!"crept\tcreep", c!"cut\tcut", c!"dealt\tdeal", c!"did\tdo", c!"drank\tdrink", c!"dreamt\tdream",
   c!"drew\tdraw", c!"drove\tdrive", c!"dug\tdig", c!"dwelt\tdwell", c!"fed\tfeed", c!"fell\tfall",
   c!"felt\tfeel", c!"fled\tflee", c!"flew\tfly", c!"flung\tfling", c!"forbade\tforbid", c!"foresaw\tforesee",
   c!"foretold\tforetell", c!"forgave\tforgive", c!"forgot\tforget", c!"forsook\tforsake", c!"fought\tfight",
   c!"found\tfind", c!"froze\tfreeze", c!"gave\tgive", c!"got\tget", c!"grew\tgrow", c!"ground\tgrind",
   c!"had\thave", c!"heard\thear", c!"held\thold", c!"hid\thide", c!"hit\thit", c!"hung\thang", c!"hurt\thurt",
   c!"interwove\tinterweave", c!"kept\tkeep", c!"knelt\tkneel", c!"knew\tknow", c!"laid\tlay", c!"leant\tlean",
   c!"leapt\tleap", c!"learnt\tlearn", c!"led\tlead", c!"left\tleave", c!"lent\tlend", c!"let\tlet",
   c!"lost\tlose", c!"made\tmake", c!"meant\tmean", c!"met\tmeet", c!"mistook\tmistake", c!"overheard\toverhear",
   c!"oversaw\toversee", c!"overslept\toversleep", c!"paid\tpay", c!"put\tput", c!"ran\trun", c!"rang\tring",
   c!"read\tread", c!"rent\trend", c!"rid\trid", c!"rode\tride", c!"rose\trise", c!"said\tsay", c!"sang\tsing",
   c!"sank\tsink", c!"sat\tsit", c!"saw\tsee", c!"sent\tsend", c!"set\tset", c!"shed\tshed", c!"shit\tshit",
   c!"shod\tshoe", c!"shone\tshine", c!"shook\tshake", c!"shot\tshoot", c!"shrank\tshrink", c!"shrove\tshrive",
   c!"shut\tshut", c!"slept\tsleep", c!"slew\tslay", c!"slid\tslide", c!"slit\tslit", c!"slung\tsling",
   c!"slunk\tslink", c!"smelt\tsmell", c!"smote\tsmite", c!"sold\tsell", c!"sought\tseek", c!"spat\tspit",
   c!"sped\tspeed", c!"spent\tspend", c!"split\tsplit", c!"spoilt\tspoil", c!"spoke\tspeak", c!"sprang\tspring",
   c!"spread\tspread", c!"spun\tspin", c!"stank\tstink", c!"stole\tsteal", c!"stood\tstand", c!"strode\tstride",
   c!"strove\tstrive", c!"struck\tstrike", c!"strung\tstring", c!"stuck\tstick", c!"stung\tsting", c!"swam\tswim",
   c!"swept\tsweep", c!"swore\tswear", c!"swung\tswing", c!"taught\tteach", c!"thought\tthink", c!"threw\tthrow",
   c!"thrust\tthrust", c!"told\ttell", c!"took\ttake", c!"tore\ttear", c!"trod\ttread",
   c!"understood\tunderstand", c!"undertook\tundertake", c!"undid\tundo", c!"upheld\tuphold", c!"upset\tupset",
   c!"was\tbe", c!"went\tgo", c!"wept\tweep", c!"were\tbe", c!"withdrew\twithdraw", c!"withheld\twithhold",
   c!"withstood\twithstand", c!"woke\twake", c!"won\twin", c!"wore\twear", c!"wound\twind", c!"wove\tweave",
   c!"wrote\twrite", c!"wrung\twring"]

/-- The lines of `data/english/irregular_past_participles.txt`:1-179 -/
def irregularPastParticiplesLines : List Str :=
  [c!"abode\tabide", c!"arisen\tarise", c!"awoken\tawake", c!"beaten\tbeat", c!"become\tbecome", c!"been\tbe",
   c!"befallen\tbefall", c!"begotten\tbeget", c!"begun\tbegin", c!"beheld\tbehold", c!"bent\tbend",
   c!"bereft\tbereave", c!"beset\tbeset", c!"besought\tbeseech", c!"bespoken\tbespeak", c!"bestridden\tbestride",
   c!"bet\tbet", c!"bid\tbid", c!"bitten\tbite", c!"bled\tbleed", c!"blown\tblow", c!"born\tbear",
   c!"bought\tbuy", c!"bound\tbind", c!"bred\tbreed", c!"broadcast\tbroadcast", c!"broken\tbreak",
   c!"brought\tbring", c!"built\tbuild", c!"burnt\tburn", c!"burst\tburst", c!"cast\tcast", c!"caught\tcatch",
   c!"chosen\tchoose", c!"clung\tcling", c!"come\tcome", c!"cost\tcost", c!"crept\tcreep", c!"cut\tcut",
   c!"dealt\tdeal", c!"done\tdo", c!"drawn\tdraw", c!"dreamt\tdream", c!"driven\tdrive", c!"drunk\tdrink",
   c!"dug\tdig", c!"dwelt\tdwell", c!"eaten\teat", c!"fallen\tfall", c!"fed\tfeed", c!"felt\tfeel",
   c!"fled\tflee", c!"flown\tfly", c!"flung\tfling", c!"forbidden\tforbid", c!"forecast\tforecast",
   c!"foreseen\tforesee", c!"foretold\tforetell", c!"forgiven\tforgive", c!"forgotten\tforget",
   c!"forsaken\tforsake", c!"fought\tfight", c!"found\tfind", c!"frozen\tfreeze", c!"given\tgive", c!"gone\tgo",
   c!"got\tget", c!"ground\tgrind", c!"grown\tgrow", c!"had\thave", c!"heard\thear", c!"held\thold",
   c!"hidden\thide", c!"hit\thit", c!"hung\thang", c!"hurt\thurt", c!"interwoven\tinterweave", c!"kept\tkeep",
   c!"knelt\tkneel", c!"known\tknow", c!"laid\tlay", c!"leant\tlean", c!"leapt\tleap", c!"learnt\tlearn",
   c!"led\tlead", c!"left\tleave", c!"lent\tlend", c!"let\tlet", c!"lost\tlose", c!"made\tmake", c!"meant\tmean",
   c!"met\tmeet", c!"mistaken\tmistake", c!"overheard\toverhear", c!"overseen\toversee", c!"overslept\toversleep",
   c!"paid\tpay", c!"proven\tprove", c!"put\tput", c!"read\tread", c!"rent\trend", c!"rid\trid", c!"ridden\tride",
   c!"risen\trise", c!"run\trun", c!"rung\tring", c!"said\tsay", c!"sat\tsit", c!"seen\tsee", c!"sent\tsend",
   c!"set\tset", c!"shaken\tshake", c!"shed\tshed", c!"shit\tshit", c!"shod\tshoe", c!"shone\tshine",
   c!"shot\tshoot", c!"shown\tshow", c!"shriven\tshrive", c!"shrunk\tshrink", c!"shut\tshut", c!"slain\tslay",
   c!"slept\tsleep", c!"slid\tslide", c!"slit\tslit", c!"slung\tsling", c!"slunk\tslink", c!"smelt\tsmell",
   c!"smitten\tsmite", c!"sold\tsell", c!"sought\tseek", c!"spat\tspit", c!"sped\tspeed", c!"spent\tspend",
   c!"split\tsplit", c!"spoilt\tspoil", c!"spoken\tspeak", c!"spread\tspread", c!"sprung\tspring", c!"spun\tspin",
   c!"stolen\tsteal", c!"stood\tstand", c!"stridden\tstride", c!"striven\tstrive", c!"struck\tstrike",
   c!"strung\tstring", c!"stuck\tstick", c!"stung\tsting", c!"stunk\tstink", c!"sung\tsing", c!"sunk\tsink",
   c!"swept\tsweep", c!"sworn\tswear", c!"swum\tswim", c!"swung\tswing", c!"taken\ttake", c!"taught\tteach",
   c!"thought\tthink", c!"thrown\tthrow", c!"thrust\tthrust", c!"told\ttell", c!"torn\ttear", c!"trodden\ttread",
   c!"understood\tunderstand", c!"undertaken\tundertake", c!"undone\tundo", c!"upheld\tuphold", c!"upset\tupset",
   c!"wept\tweep", c!"withdrawn\twithdraw", c!"withheld\twithhold", c!"withstood\twithstand", c!"woken\twake",
   c!"won\twin", c!"worn\twear", c!"wound\twind", c!"woven\tweave", c!"written\twrite", c!"wrung\twring"]

/-- The lines of `data/english/irregular_plurals.txt`:1-22 -/
def irregularPluralsLines : List Str :=
  [c!"booklice\tbooklouse", c!"children\tchild", c!"deer\tdeer", c!"dice\tdice", c!"feet\tfoot", c!"geese\tgoose",
   c!"hot dogs\thot dog", c!"lice\tlouse", c!"men\tman", c!"mice\tmouse", c!"moose\tmoose", c!"oxen\tox",
   c!"people\tpeople", c!"sealice\tsealouse", c!"series\tseries", c!"sheep\tsheep", c!"shrimp\tshrimp",
   c!"species\tspecies", c!"swine\tswine", c!"teeth\ttooth", c!"trout\ttrout", c!"vortices\tvortex"]

/-- The lines of `data/english/irregular_comparatives.txt`:1-4 -/
def irregularComparativesLines : List Str :=
  [c!"better\tgood", c!"farther\tfar", c!"further\tfar", c!"worse\tbad"]

/-- The lines of `data/english/irregular_superlatives.txt`:1-4 -/
def irregularSuperlativesLines : List Str :=
  [c!"best\tgood", c!"farthest\tfar", c!"furthest\tfar", c!"worst\tbad"]

/-- The content of a text file with the given lines. -/
def fileContent (lines : List Str) : Str := (lines.map fun l => l ++ c!"\n").flatten

/-- The five tables loaded by `LogicPipeline.__init__`, logic_pipeline.py:24-28 -/
structure Tables where
  preterits : Dict Str Str
  pps : Dict Str Str
  plurals : Dict Str Str
  comparatives : Dict Str Str
  superlatives : Dict Str Str
  deriving DecidableEq

/-- Loading the tables from the contents of their files, logic_pipeline.py:24-28 -/
def Tables.load (preterits pps plurals comparatives superlatives : Str) : Except PyErr Tables := do
  let preterits ← loadDict preterits
  let pps ← loadDict pps
  let plurals ← loadDict plurals
  let comparatives ← loadDict comparatives
  let superlatives ← loadDict superlatives
  return { preterits, pps, plurals, comparatives, superlatives }

/-- Loading the shipped files, logic_pipeline.py:24-28 -/
def shippedTables : Except PyErr Tables :=
  Tables.load (fileContent irregularPreteritsLines) (fileContent irregularPastParticiplesLines)
    (fileContent irregularPluralsLines) (fileContent irregularComparativesLines) (fileContent irregularSuperlativesLines)

/-- `Lemmatizer(language_model, adjs, preterits, …)`, logic_pipeline.py:35-36 -/
def Tables.lemmatizer (t : Tables) (lower : Str → Str) (lm : LM) (adjs : List Str) : Lemmatizer :=
  { lower := lower, prefixes := lemmatizerPrefixes, lm := lm, adjs := adjs, preteritLemma := t.preterits,
    ppLemma := t.pps, pluralLemma := t.plurals, comparativeLemma := t.comparatives,
    superlativeLemma := t.superlatives }

/-- `reversed_pps`, logic_pipeline.py:31 -/
def Tables.lemmaPP (t : Tables) : Dict Str Str := reverseDict t.pps

end Model
