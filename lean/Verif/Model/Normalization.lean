import Verif.Model.LangModel
import Verif.Model.Node

/-! Model of `scrappybara/normalization`: lemmatizer, standardizer, inflector, canonicalizer. -/

namespace Model
open Py

/-! ### lemmatizer.py -/

/-- `Lemmatizer.__init__`, lemmatizer.py:21-30. `lower` is `str.lower`, `prefixes` the set of prefixes in the order in
which it is enumerated (lemmatizer.py:10-15). The adjectives are a set. -/
structure Lemmatizer where
  lower : Str → Str
  prefixes : List Str
  lm : LM
  adjs : List Str
  preteritLemma : Dict Str Str
  ppLemma : Dict Str Str
  pluralLemma : Dict Str Str
  comparativeLemma : Dict Str Str
  superlativeLemma : Dict Str Str

/-- `__prefixes`, lemmatizer.py:10-15 -/
def lemmatizerPrefixes : List Str := [c!"re", c!"un", c!"mis", c!"dis", c!"out", c!"co", c!"sub", c!"grand"]

/-- A lemma and a suffix. -/
abbrev LemmaSuffix := Str × Option Suffix

/-- The full matches for verbs, lemmatizer.py:39-51 -/
def fixedVerb (word : Str) : Option LemmaSuffix :=
  if word ∈ [c!"'m", c!"am", c!"'re", c!"are"] then some (c!"be", none)
  else if word ∈ [c!"'s", c!"is"] then some (c!"be", some .THIRD_PERSON)
  else if word = c!"being" then some (c!"be", some .PROGRESSIVE)
  else if word = c!"has" then some (c!"have", some .THIRD_PERSON)
  else if word = c!"doing" then some (c!"do", some .PROGRESSIVE)
  else if word ∈ [c!"need"] then some (word, none)
  else none

/-- The full matches, lemmatizer.py:39-68 -/
def fixedLemma (word : Str) (tag : Tag) : Option LemmaSuffix :=
  if tag = .VERB then fixedVerb word
  else if tag = .ADJ then
    (if word = c!"better" then some (c!"good", some .COMPARATIVE)
     else if word = c!"best" then some (c!"good", some .SUPERLATIVE) else none)
  else if tag = .ADV then
    (if word = c!"better" then some (c!"well", some .COMPARATIVE)
     else if word = c!"best" then some (c!"well", some .SUPERLATIVE)
     else if word = c!"'" then some (c!"'s", none) else none)
  else if tag ∈ nounTags then
    (if word = c!"'s" then some (c!"we", none)
     else if word ∈ [c!"acumen"] then some (word, none) else none)
  else none

/-- `__irregular_lemma`, lemmatizer.py:255-271 -/
def Lemmatizer.irregularLemma (z : Lemmatizer) (word : Str) (tag : Tag) : Option LemmaSuffix :=
  if tag = .NOUN then (Dict.get? z.pluralLemma word).map fun l => (l, some .PLURAL)
  else if tag = .VERB then
    (match Dict.get? z.ppLemma word with
     | some l => some (l, some .PAST)
     | none => (Dict.get? z.preteritLemma word).map fun l => (l, some .PAST))
  else if tag = .ADJ then
    (match Dict.get? z.comparativeLemma word with
     | some l => some (l, some .COMPARATIVE)
     | none => (Dict.get? z.superlativeLemma word).map fun l => (l, some .SUPERLATIVE))
  else none

/-- The words put before the candidates, lemmatizer.py:244-247 -/
def tokensBefore (candidates : List Str) (tag : Tag) : List Str :=
  if tag = .VERB then
    [c!"i", c!"you", c!"we", c!"they", c!"may", c!"might", c!"can", c!"could", c!"would", c!"should"]
  else candidates

/-- `__best_candidate`, lemmatizer.py:237-253 -/
def Lemmatizer.bestCandidate (z : Lemmatizer) (stem : Str) (endings : List Str) (tag : Tag) :
    Except PyErr (Option Str) :=
  match endings with
  | [e] => .ok (if z.lm.hasNgram (stem ++ e) 1 then some (stem ++ e) else none)
  | _ => do
    let candidates := endings.map (stem ++ ·)
    let best ← z.lm.bestNgram (candidates.flatMap fun c => (tokensBefore candidates tag).map fun t => join c!" " [t, c])
    match best with
    | some g => do
      let w ← index (splitWs g) (-1)
      return some w
    | none => z.lm.bestNgram candidates

/-- `_lm_lemma`, lemmatizer.py:86-98 -/
def Lemmatizer.lmLemma (z : Lemmatizer) (word : Str) (tag : Tag) (start : Str) (endings : List Str) (suffix : Suffix) :
    Except PyErr LemmaSuffix := do
  let best ← z.bestCandidate start endings tag
  match best with
  | some b => return (b, some suffix)
  | none =>
    match tokenPrefix start z.prefixes with
    | some (pre, base) => do
      let best ← z.bestCandidate base endings tag
      match best with
      | some b => return (pre ++ b, some suffix)
      | none => return (word, none)
    | none => return (word, none)

/-- What follows a `token_start` test: which condition on the start of the word, which stem and endings are submitted
to the language model.
* `double`: `endings = vowel_double_consonant_endings(start)`, if any, with the stem `start[:-2]`;
* `consonant es`: if `ends_with_consonant(start)`, the endings `es` with the stem `start`;
* `plain es`: the endings `es` with the stem `start`;
* `last es`: the endings `start[-1] + e` for `e` in `es` with the stem `start[:-1]`. -/
inductive RuleKind
  | double
  | consonant (es : List Str)
  | plain (es : List Str)
  | last (es : List Str)

/-- One `token_start(word, ending, min_length)` test with its consequence. -/
structure Rule where
  ending : Str
  minLength : Int
  kind : RuleKind
  suffix : Suffix
  /-- extra condition on the word -/
  guard : Lemmatizer → Str → Bool := fun _ _ => true

/-- Rules for adjectives, lemmatizer.py:103-133 -/
def adjRules : List Rule :=
  [{ ending := c!"est", minLength := 4, kind := .double, suffix := .SUPERLATIVE },
   { ending := c!"er", minLength := 4, kind := .double, suffix := .COMPARATIVE },
   { ending := c!"iest", minLength := 2, kind := .consonant [c!"y"], suffix := .SUPERLATIVE },
   { ending := c!"est", minLength := 3, kind := .last [c!"", c!"e"], suffix := .SUPERLATIVE },
   { ending := c!"ier", minLength := 2, kind := .consonant [c!"y"], suffix := .COMPARATIVE },
   { ending := c!"er", minLength := 3, kind := .last [c!"", c!"e"], suffix := .COMPARATIVE
     guard := fun z w => !decide (w ∈ z.adjs) }]

/-- Rules for verbs, lemmatizer.py:138-191 -/
def verbRules : List Rule :=
  [{ ending := c!"icking", minLength := 2, kind := .consonant [c!"ic"], suffix := .PROGRESSIVE },
   { ending := c!"icked", minLength := 2, kind := .consonant [c!"ic"], suffix := .PAST },
   { ending := c!"ing", minLength := 4, kind := .double, suffix := .PROGRESSIVE },
   { ending := c!"ing", minLength := 3, kind := .last [c!"", c!"e"], suffix := .PROGRESSIVE },
   { ending := c!"icks", minLength := 2, kind := .consonant [c!"ic"], suffix := .THIRD_PERSON },
   { ending := c!"ed", minLength := 4, kind := .double, suffix := .PAST },
   { ending := c!"ied", minLength := 2, kind := .consonant [c!"y"], suffix := .PAST },
   { ending := c!"ies", minLength := 1, kind := .consonant [c!"y", c!"ie"], suffix := .THIRD_PERSON },
   { ending := c!"ed", minLength := 2, kind := .last [c!"", c!"e"], suffix := .PAST },
   { ending := c!"es", minLength := 2, kind := .last [c!"", c!"e"], suffix := .THIRD_PERSON },
   { ending := c!"s", minLength := 2, kind := .last [c!""], suffix := .THIRD_PERSON }]

/-- Rules for nouns, lemmatizer.py:196-230 -/
def nounRules : List Rule :=
  [{ ending := c!"a", minLength := 5, kind := .plain [c!"on"], suffix := .PLURAL },
   { ending := c!"ieves", minLength := 1, kind := .consonant [c!"ief"], suffix := .PLURAL },
   { ending := c!"i", minLength := 4, kind := .plain [c!"us"], suffix := .PLURAL },
   { ending := c!"ies", minLength := 2, kind := .consonant [c!"y", c!"ie"], suffix := .PLURAL },
   { ending := c!"ves", minLength := 2, kind := .plain [c!"f", c!"fe", c!"ve"], suffix := .PLURAL },
   { ending := c!"men", minLength := 2, kind := .plain [c!"man"], suffix := .PLURAL },
   { ending := c!"es", minLength := 2, kind := .last [c!"", c!"e", c!"is"], suffix := .PLURAL },
   { ending := c!"s", minLength := 2, kind := .last [c!""], suffix := .PLURAL
     guard := fun z w => !(endsWith w c!"ss" || z.lm.hasNgram (w ++ c!"es") 1) }]

/-- The rules tried for a tag. -/
def rulesFor (tag : Tag) : List Rule :=
  if tag = .ADJ then adjRules else if tag = .VERB then verbRules else if tag = .NOUN then nounRules else []

/-- The stem and the endings of a rule for a start; `none`: its condition fails and the next rule is tried. -/
def RuleKind.apply (k : RuleKind) (start : Str) : Except PyErr (Option (Str × List Str)) :=
  match k with
  | .double => .ok ((vowelDoubleConsonantEndings start).map fun es => (sliceTo start (-2), es))
  | .consonant es => do return (if ← endsWithConsonant start then some (start, es) else none)
  | .plain es => .ok (some (start, es))
  | .last es => do
    let c ← index start (-1)
    return some (sliceTo start (-1), es.map (c :: ·))

/-- One rule: `none` if it does not apply. -/
def Lemmatizer.applyRule (z : Lemmatizer) (word : Str) (tag : Tag) (r : Rule) : Except PyErr (Option LemmaSuffix) :=
  match tokenStart word r.ending r.minLength with
  | none => .ok none
  | some start =>
    if r.guard z word then do
      match ← r.kind.apply start with
      | none => return none
      | some (stem, endings) => return some (← z.lmLemma word tag stem endings r.suffix)
    else .ok none

/-- The rules in turn, lemmatizer.py:103-235 -/
def Lemmatizer.tryRules (z : Lemmatizer) (word : Str) (tag : Tag) : List Rule → Except PyErr LemmaSuffix
  | [] => .ok (word, none)
  | r :: rs => do
    match ← z.applyRule word tag r with
    | some res => return res
    | none => z.tryRules word tag rs

/-- The irregular lemma behind a prefix, lemmatizer.py:76-81 -/
def Lemmatizer.prefixedIrregular (z : Lemmatizer) (word : Str) (tag : Tag) : Option LemmaSuffix :=
  match tokenPrefix word z.prefixes with
  | some (pre, base) => (z.irregularLemma base tag).map fun ls => (pre ++ ls.1, ls.2)
  | none => none

/-- `Lemmatizer.__call__`, lemmatizer.py:32-235 -/
def Lemmatizer.call (z : Lemmatizer) (text : Str) (tag : Tag) : Except PyErr LemmaSuffix :=
  let word := z.lower text
  match fixedLemma word tag with
  | some r => .ok r
  | none =>
    match z.irregularLemma word tag with
    | some r => .ok r
    | none =>
      match z.prefixedIrregular word tag with
      | some r => .ok r
      | none => z.tryRules word tag (rulesFor tag)

/-! ### inflector.py -/

/-- The test for a consonant and `ie`, inflector.py:16-17 -/
def endsWithConsonantIe (lem : Str) : Except PyErr Bool :=
  if lem.length > 2 then do
    let a ← index lem (-3)
    return decide (a ∈ consonants) && endsWith lem c!"ie"
  else .ok false

/-- The regular past participle, inflector.py:16-29. `ctx` are the tokens of the absent context, `best_token` being
called without `before` and `after`. -/
def regularPP (lm : LM) (ctx : List Str) (lem : Str) : Except PyErr Str := do
  let ie ← endsWithConsonantIe lem
  if ie then return lem ++ c!"d"
  else if lem.length > 1 then do
    let a ← index lem (-2)
    let b ← index lem (-1)
    if a ∈ consonants ∧ b = 'y' then return sliceTo lem (-1) ++ c!"ied"
    else if a ∈ consonants ∧ endsWith lem c!"e" then return lem ++ c!"d"
    else if a ∈ vowels ∧ b ∈ consonants then do
      match ← lm.bestToken [lem ++ c!"ed", lem ++ [b] ++ c!"ed"] ctx ctx with
      | some best => return (if best.isEmpty then lem ++ c!"ed" else best)
      | none => return lem ++ c!"ed"
    else return lem ++ c!"ed"
  else return lem ++ c!"ed"

/-- `past_participle`, inflector.py:10-29 -/
def pastParticiple (lm : LM) (ctx : List Str) (lemmaPP : Dict Str Str) (lem : Str) : Except PyErr Str :=
  match Dict.get lemmaPP lem with
  | .ok pp => .ok pp
  | .error _ => regularPP lm ctx lem

/-! ### standardizer.py -/

/-- Letters matched by `[a-z]` with `re.I`: ASCII letters and four more. -/
def isLetterI (c : Char) : Bool := isAsciiLetter c || c = '\u0130' || c = '\u0131' || c = '\u017F' || c = '\u212A'

/-- Whether a character matches a lower-case ASCII letter with `re.I`. -/
def matchI (p c : Char) : Bool :=
  lowerAscii c = p || (p = 'i' && (c = '\u0130' || c = '\u0131')) || (p = 's' && c = '\u017F') ||
    (p = 'k' && c = '\u212A')

/-- What a lower-case ASCII literal consumes at the start of a text with `re.I`: the part matched and the rest. -/
def litI : Str → Str → Option (Str × Str)
  | [], t => some ([], t)
  | _ :: _, [] => none
  | p :: ps, c :: cs => if matchI p c then (litI ps cs).map fun r => (c :: r.1, r.2) else none

/-- `_split_token`, standardizer.py:4-15: `re.fullmatch` of `([a-z]+)(m1|m2…)(e1|e2…)` with `re.I`; a backtracking
search with the longest start first, then the alternatives in order. -/
def splitMatches (token : Str) (middles endings : List Str) : List (Str × Str × Str) :=
  ((List.range (token.takeWhile isLetterI).length).reverse).flatMap fun k =>
    middles.flatMap fun m =>
      match litI m (token.drop (k + 1)) with
      | none => []
      | some (mid, rest) => endings.filterMap fun e =>
        match litI e rest with
        | some (fin, []) => some (token.take (k + 1), mid, fin)
        | _ => none

/-- `_split_token`, standardizer.py:4-15 -/
def splitToken (token : Str) (middles endings : List Str) : Option (Str × Str × Str) :=
  match (splitMatches token middles endings).head? with
  | some r => if r.1.length > 1 then some r else none
  | none => none

/-- `text.replace(a + b, new)` for a pattern of two distinct characters. -/
def replace2 (a b : Char) (new : Str) : Str → Str
  | x :: y :: t => if x = a ∧ y = b then new ++ replace2 a b new t else x :: replace2 a b new (y :: t)
  | t => t

/-- `text.find(a + b) > -1` -/
def has2 (a b : Char) : Str → Bool
  | x :: y :: t => (x = a ∧ y = b) || has2 a b (y :: t)
  | _ => false

/-- One of the five alternations found by `_split_token`: `none` if the token does not have this shape, its start is not
longer than 2, or the language model knows no candidate. standardizer.py:28-68 -/
def alternation (lm : LM) (token : Str) (middles endings : List Str) (cands : Str → Str → Str → Except PyErr (List Str))
    (result : Str → Str → Str) : Except PyErr (Option Str) :=
  match splitToken token middles endings with
  | some (start, mid, fin) =>
    if start.length > 2 then do
      let cs ← cands start mid fin
      match ← lm.bestNgram cs with
      | some best => return some (result best fin)
      | none => return none
    else .ok none
  | none => .ok none

/-- The last two alternations, standardizer.py:69-78 -/
def ligature (lm : LM) (token : Str) (a b : Char) : Except PyErr (Option Str) :=
  if token.length > 4 ∧ has2 a b token = true then lm.bestNgram [replace2 a b [b] token, token] else .ok none

/-- The first result of a list of attempts, `default` if there is none. -/
def firstSome {α} (default : α) : List (Except PyErr (Option α)) → Except PyErr α
  | [] => .ok default
  | x :: xs => do
    match ← x with
    | some r => return r
    | none => firstSome default xs

/-- `Standardizer.__call__`, standardizer.py:23-79 -/
def standardize (lm : LM) (token : Str) : Except PyErr Str :=
  if lm.hasNgram token 5 then .ok token
  else firstSome token
    [alternation lm token [c!"our", c!"or"] [c!"ing", c!"ed", c!"s", c!""]
       (fun s _ _ => .ok [s ++ c!"or", s ++ c!"our"]) (fun b e => b ++ e),
     alternation lm token [c!"ys", c!"yz", c!"is", c!"iz"]
       [c!"ations", c!"ation", c!"ers", c!"er", c!"ing", c!"ed", c!"es", c!"e"]
       (fun s m _ => do
         let v ← index m 0
         return [s ++ [v] ++ c!"ze", s ++ [v] ++ c!"se"]) (fun b e => sliceTo b (-1) ++ e),
     alternation lm token [c!"c", c!"s"] [c!"ives", c!"ive", c!"es", c!"e"]
       (fun s _ _ => .ok [s ++ c!"se", s ++ c!"ce"]) (fun b e => sliceTo b (-1) ++ e),
     alternation lm token [c!"og", c!"ogue"] [c!"s", c!""]
       (fun s _ _ => .ok [s ++ c!"og", s ++ c!"ogue"]) (fun b e => b ++ e),
     alternation lm token [c!"el", c!"ell"] [c!"ing", c!"ers", c!"ed", c!"er"]
       (fun s _ e => .ok [s ++ c!"el" ++ e, s ++ c!"ell" ++ e]) (fun b _ => b),
     ligature lm token 'a' 'e',
     ligature lm token 'o' 'e']

/-! ### canonicalizer.py -/

/-- `_particle_compound`, canonicalizer.py:6-9 -/
def particleCompound (lem : Str) (n : Node) : Str :=
  if n.particles.isEmpty then lem else join c!" " (lem :: n.particles)

/-- `__personal_pronouns_object_to_subject`, canonicalizer.py:15-22 -/
def objectToSubject : Dict Str Str :=
  [(c!"me", c!"i"), (c!"you", c!"you"), (c!"her", c!"she"), (c!"him", c!"he"), (c!"us", c!"we"), (c!"them", c!"they")]

/-- Truth of an optional string. -/
def truthy : Option Str → Bool
  | some (_ :: _) => true
  | _ => false

/-- `Canonicalizer.__call__`, canonicalizer.py:27-44, with the lemmatizer. -/
def canonicalize (lemmatize : Str → Tag → Except PyErr LemmaSuffix) (n : Node) : Except PyErr Node :=
  match (if n.tag = .PRON then Dict.get? objectToSubject n.lem else none) with
  | some subj => .ok { n with canon := subj }
  | none =>
    match (if n.tag = .NOUN ∧ truthy n.chunk then n.chunk else none) with
    | some chunk => .ok { n with canon := chunk }
    | none =>
      if n.tag = .ADJ then do
        let ls ← lemmatize n.standard .VERB
        let n := { n with suffix := ls.2 }
        let n := if ls.2 = some .PAST then { n with activeVerb := some (particleCompound ls.1 n) } else n
        return { n with canon := particleCompound n.lem n }
      else if n.tag = .VERB then .ok { n with canon := particleCompound n.lem n }
      else .ok { n with canon := n.lem }

end Model
