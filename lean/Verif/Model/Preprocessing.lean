import Verif.Py.Regex
import Verif.Model.Text

/-! # Preprocessing: `sanitize`, `Tokenizer`, `Sentencizer`

Models /repo/scrappybara/preprocessing/{sanitization,tokenizer,sentencizer}.py.  The pattern texts are those of the code
(`re%`, `rei%` and `tpl%` of `Verif/Py/Regex.lean`); patterns that the code builds with `%` are written out.

The text argument is a string; `None` (for which `sanitize` returns `''` and the tokenizer `['']`) is not modelled. -/

namespace Model

open Py

/-- A rule: pattern and replacement. -/
abbrev SubRule := Re × List Tp

/-- `for pattern, rep in rules: text = re.sub(pattern, rep, text)` -/
def subAll (db : CharDB) (rules : List SubRule) (text : Str) : Str := rules.foldl (fun t r => r.1.sub db r.2 t) text

/-- `sanitize` (preprocessing/sanitization.py:4-12). -/
def sanitize (db : CharDB) (rules : List SubRule) (text : Str) : Str :=
  join [' '] (splitWs (subAll db rules (Py.strip text)))

/-! ### Patterns of the tokenizer (preprocessing/tokenizer.py) -/

/-- `__re_sanitization` (tokenizer.py:12-16). -/
def tokSanitization : List SubRule := [
  (re% r"[‘’′]", tpl% "'"),
  (re% r"[“”″]", tpl% "\""),
  (re% r"[–—]+", tpl% " - ")]

/-- `__re_protect` (tokenizer.py:22-28). -/
def tokProtect : List Re := [
  rei% r"\s'n'\s",
  rei% r"\s('n|n')\s",
  rei% r"(https?://|www\.)[^\s.]+(\.[^\s.]+)+(/[^\s]*)*",
  rei% r"[^\s.]+(\.[^\s.]+)+/[^\s]*",
  rei% r"([:;]-?\))|([:;]-?\()"]

/-- `__re_no_split` (tokenizer.py:62-77), with `__abbr_options` (lines 47-59) written out. -/
def tokNoSplit : List SubRule := [
  (re% r"\.(?=\s[a-z])", tpl% "_NSD_"),
  (re% r"\.(?=\s?[,:;?!])", tpl% "_NSD_"),
  (re% r"\.(?=\s\d+\b)", tpl% "_NSD_"),
  (rei% r"\b(m|mr|mrs|ms|sr|dr|prof|rev|gov|sen|rep|lt|sgt|ave|st|ed|feat)\.(?=\s[A-Z])", tpl% r"\g<1>_NSD_"),
  (rei% r#"(?<=\s)(\d[\d,.]*)\'(\d[\d,.]*)""#, tpl% r"\g<1>ft\g<2>in"),
  (rei% r"(?<=\s)(\d[\d,.]*)\'", tpl% r"\g<1>ft"),
  (rei% r#"(?<=\s)(\d[\d,.]*)""#, tpl% r"\g<1>in"),
  (rei% r"\s?>\s?=\s?", tpl% "_NSGE_"),
  (rei% r"\s?<\s?=\s?", tpl% "_NSLE_"),
  (rei% r"\s?=\s?>\s?", tpl% "_RNSGE_"),
  (rei% r"\s?=\s?<\s?", tpl% "_RNSLE_")]

/-- `__re_always_split` and its replacement (tokenizer.py:82 and 172). -/
def tokAlwaysSplit : SubRule :=
  (re% r#"([.?!]{2,}|…+|=+|!+|\?+|"+|;+|\|+|\\+|\(+|\)+|{+|}+|\[+|]+|–+)"#, tpl% r" \g<0> ")

/-- `__re_token_nosplit_dot` (tokenizer.py:91-98). -/
def tokNoSplitDot : List Re := [
  rei% r"(\w\.){2,}",
  rei% r"\.?([^.]+\.){2,}[^.]+",
  rei% r"[a-zA-Z]\.",
  rei% r"\d\.(?=(\s[^A-Z]))",
  rei% r"(\d+\.){2,}",
  rei% r"\.{2,}"]

/-- `__re_token_split_dot` (tokenizer.py:102-105). -/
def tokSplitDot : List SubRule := [
  (re% r"([a-z]+)(\.)([A-Z\'])", tpl% r"\g<1> \g<2> \g<3>"),
  (re% r"\.$", tpl% r" \g<0>")]

/-- `__re_segment_off` (tokenizer.py:110-149). -/
def tokSegmentOff : List SubRule := [
  (rei% r"(?<=\b)(can)(not)(?=\b)", tpl% r"\g<1> \g<2>"),
  (rei% r"(?<=[a-z])\*+(?=[a-z])", tpl% " * "),
  (rei% r"(?<=[a-z][a-z][a-z])\+(?=[a-z]{3,})", tpl% " + "),
  (rei% r"(\d+)\+(?=[a-z])", tpl% r"\g<1>+ "),
  (re% r"(?<=\b)&(?!\b)", tpl% " & "),
  (re% r"(?<!\b)&(?=\b)", tpl% " & "),
  (re% r"([a-zA-Z][a-z]{2,})&([a-zA-Z][a-z]{2,})", tpl% r"\g<1> & \g<2>"),
  (rei% r"(?<=[a-z\d][a-z])/", tpl% " / "),
  (rei% r"/(?=[a-z][a-z\d])", tpl% " / "),
  (rei% r"(?<=[a-z])%", tpl% " % "),
  (rei% r"%(?=[a-z])", tpl% " % "),
  (re% r":(?=\s|$)", tpl% " : "),
  (re% r"(?<=\s):", tpl% " : "),
  (re% r"([a-zA-Z][a-z]{2,}):([a-zA-Z][a-zA-Z]+)", tpl% r"\g<1> : \g<2>"),
  (rei% r"([a-z]{3,}):(\d+)", tpl% r"\g<1> : \g<2>"),
  (rei% r"([0-9]+):([a-zA-Z]+)", tpl% r"\g<1> : \g<2>"),
  (re% r"(?<!-)>", tpl% " > "),
  (re% r"<(?!-)", tpl% " < "),
  (re% r"(?<!\d),", tpl% " , "),
  (re% r",(?!\d)", tpl% " , "),
  (re% r"(^|\s)'(?!s)", tpl% " ' "),
  (re% r"'(\s|$)", tpl% " ' "),
  (rei% r"(?<=\w\w\w)'(?=\w\w\w)", tpl% " ' "),
  (rei% r"(^|\s)'(?=s\w)", tpl% " ' "),
  (rei% r"(n't|'re|'ll|'ve|'m|'d|'s)(?=\s|$)", tpl% r" \g<1> "),
  (re% r"\s([*-])([a-zA-Z]+)(?=\s|$)", tpl% r" \g<1> \g<2> ")]

/-- The five substitutions that put symbols back (tokenizer.py:188-192, patterns of lines 33-42). -/
def tokRestore : List SubRule := [
  (re% r"_NSD_", tpl% "."),
  (re% r"_NSGE_", tpl% " >= "),
  (re% r"_NSLE_", tpl% " <= "),
  (re% r"_RNSGE_", tpl% " => "),
  (re% r"_RNSLE_", tpl% " =< ")]

/-- `__re_reattach` (tokenizer.py:154-159). -/
def tokReattach : List SubRule := [
  (re% r"\b([A-Z])\s([A-Z])\s&\s([A-Z])\b", tpl% r"\g<1>\g<2>&\g<3>"),
  (re% r"\b([A-Z])\s&\s([A-Z])\s([A-Z])\b", tpl% r"\g<1>&\g<2>\g<3>"),
  (re% r"\b([A-Z])\s&\s([A-Z])\b", tpl% r"\g<1>&\g<2>"),
  (re% r"(\.{2,}) \.", tpl% r"\g<1>.")]

/-! ### The tokenizer -/

/-- `text.replace(old, new)` for a non-empty `old`; `fuel` is the number of characters left. -/
def replaceFrom (old new : Str) : Nat → Str → Str
  | 0, s => s
  | fuel + 1, s =>
    if old.isPrefixOf s then new ++ replaceFrom old new fuel (s.drop old.length)
    else match s with
      | [] => []
      | c :: cs => c :: replaceFrom old new fuel cs

/-- `text.replace(old, new)` -/
def strReplace (old new text : Str) : Str := replaceFrom old new text.length text

/-- `'_PROTECTED_%d_' % index` (tokenizer.py:209). -/
def protectKey (i : Nat) : Str := c!"_PROTECTED_" ++ natRepr i ++ c!"_"

/-- Variables of `__protect_text`: the dictionary, the text and the index. -/
structure PState where
  dict : Dict Str Str
  text : Str
  idx : Nat
  deriving DecidableEq, Repr

/-- One round of the inner loop of `__protect_text` (tokenizer.py:206-213): `none` when the search fails. -/
def protectStep (db : CharDB) (pat : Re) (s : PState) : Option PState :=
  match pat.search db s.text with
  | none => none
  | some token =>
    let key := protectKey s.idx
    some ⟨Dict.set s.dict key token, strReplace token key s.text, s.idx + 1⟩

/-- The inner loop (`while match:`), at most `fuel` rounds; `none` when it does not stop within `fuel` rounds. -/
def protectLoop (db : CharDB) (pat : Re) : Nat → PState → Option PState
  | 0, _ => none
  | fuel + 1, s =>
    match protectStep db pat s with
    | none => some s
    | some s' => protectLoop db pat fuel s'

/-- `__protect_text` (tokenizer.py:201-214). -/
def protectText (db : CharDB) (fuel : Nat) (text : Str) : Option PState :=
  tokProtect.foldlM (fun s pat => protectLoop db pat fuel s) ⟨[], text, 1⟩

/-- Treatment of the dots of one token (tokenizer.py:176-181). -/
def splitDots (db : CharDB) (token : Str) : List Str :=
  if tokNoSplitDot.any fun r => r.fullmatch db token then [token] else splitWs (subAll db tokSplitDot token)

/-- The tokenizer between protection and restoration of protected text (tokenizer.py:169-195). -/
def segment (db : CharDB) (text : Str) : Str :=
  let text := subAll db tokNoSplit text
  let text := tokAlwaysSplit.1.sub db tokAlwaysSplit.2 text
  let text := join [' '] ((splitWs text).flatMap (splitDots db))
  let text := subAll db tokSegmentOff text
  let text := join [' '] (splitWs text)
  let text := subAll db tokRestore text
  subAll db tokReattach text

/-- `for key, value in protected.items(): text = text.replace(key, value)` (tokenizer.py:197-198). -/
def unprotect (dict : Dict Str Str) (text : Str) : Str := dict.foldl (fun t kv => strReplace kv.1 kv.2 t) text

/-- `Tokenizer.__call__` (tokenizer.py:161-199) with at most `fuel` rounds in each protection loop. -/
def tokenizeFuel (db : CharDB) (fuel : Nat) (text : Str) : Option (List Str) :=
  if text.isEmpty then some [[]]
  else
    match protectText db fuel (sanitize db tokSanitization text) with
    | none => none
    | some p => some (splitWs (unprotect p.dict (segment db p.text)))

/-- `Tokenizer.__call__`, with as many rounds as the sanitized text has characters, plus one.  `Props.C68_terminates`
shows that this always suffices and that the result does not depend on the number of rounds. -/
def tokenize (db : CharDB) (text : Str) : List Str :=
  (tokenizeFuel db ((sanitize db tokSanitization text).length + 1) text).getD []

/-! ### The sentencizer (preprocessing/sentencizer.py) -/

/-- `int(text)` for a text: optional sign, decimal digits with single underscores between them. -/
def parseDigits (db : CharDB) : Bool → Nat → Str → Option Nat
  | ok, acc, [] => if ok then some acc else none
  | ok, acc, c :: cs =>
    if db.digit c then parseDigits db true (10 * acc + db.digitVal c) cs
    else if c = '_' ∧ ok then (match cs with
      | [] => none
      | d :: cs' => if db.digit d then parseDigits db true (10 * acc + db.digitVal d) cs' else none)
    else none

/-- `int(text)`; `ValueError` when the text is no number. -/
def intOf (db : CharDB) (text : Str) : Except PyErr Int :=
  let t := Py.strip text
  let r : Option Int := match t with
    | '-' :: s => (parseDigits db false 0 s).map fun n => -(n : Int)
    | '+' :: s => (parseDigits db false 0 s).map fun n => (n : Int)
    | s => (parseDigits db false 0 s).map fun n => (n : Int)
  match r with
  | some n => .ok n
  | none => .error .value

/-- `__re_newline` (sentencizer.py:10). -/
def reNewline : Re := re% r"\s*[\t\n\r]+\s*"
/-- `__re_quote` (sentencizer.py:11). -/
def reQuote : Re := re% r#"".*?""#
/-- `__re_bracket` (sentencizer.py:12). -/
def reBracket : Re := re% r"\(.*?\)"
/-- `__re_multi_spaces` (sentencizer.py:13). -/
def reMultiSpaces : Re := re% r"\s+"
/-- `__re_sent_enders` (sentencizer.py:18). -/
def reSentEnders : Re := re% r"([.?!:]+|¶)"
/-- `__re_sanitization` (sentencizer.py:19-21). -/
def sentSanitization : List SubRule := [(re% r#"\.""#, tpl% ".\"¶")]

/-- One round of the loop of `__find_blocks` (sentencizer.py:67-71): text, shift and stored blocks. -/
def findBlocksStep (starter ender : Char) (st : Str × Int × List Str) (m : Str × Nat × Nat) : Str × Int × List Str :=
  let (text, shift, ctr) := st
  let (quote, sidx, eidx) := m
  let ctr := ctr ++ [slice quote 1 (-1)]
  let number := natRepr (ctr.length - 1)
  let text := sliceTo text ((sidx : Int) - shift) ++ [' ', starter] ++ number ++ [ender, ' '] ++
    sliceFrom text ((eidx : Int) - shift)
  (text, shift + ((quote.length : Int) - 4 - (number.length : Int)), ctr)

/-- `__find_blocks` (sentencizer.py:65-72): the new text and the container. -/
def findBlocks (db : CharDB) (pattern : Re) (starter ender : Char) (text : Str) (ctr : List Str) : Str × List Str :=
  let (text', _, ctr') := (pattern.finditer db text).foldl (findBlocksStep starter ender) (text, 0, ctr)
  (reMultiSpaces.sub db [.lit ' '] text', ctr')

/-- `[self.__find_blocks(block, ctr, …) for block in blocks]` (sentencizer.py:38-42). -/
def findBlocksAll (db : CharDB) (pattern : Re) (starter ender : Char) : List Str → List Str → List Str × List Str
  | [], ctr => ([], ctr)
  | b :: bs, ctr =>
    let (b', ctr') := findBlocks db pattern starter ender b ctr
    let (bs', ctr'') := findBlocksAll db pattern starter ender bs ctr'
    (b' :: bs', ctr'')

/-- `re.fullmatch(self.__re_sent_enders, token)` (sentencizer.py:84). -/
def isEnder (db : CharDB) (token : Str) : Bool := reSentEnders.fullmatch db token

/-- `__split_sentences` (sentencizer.py:80-93): `sents` and `current_sent`. -/
def splitSentencesAux (db : CharDB) : List Str → List Str → List (List Str)
  | [], cur => if cur.isEmpty then [] else [cur]
  | t :: ts, cur =>
    if isEnder db t then (if t ≠ c!"¶" then cur ++ [t] else cur) :: splitSentencesAux db ts []
    else splitSentencesAux db ts (cur ++ [t])

/-- `__split_sentences` (sentencizer.py:80-93). -/
def splitSentences (db : CharDB) (tokens : List Str) : List (List Str) := splitSentencesAux db tokens []

section
variable (db : CharDB) (tok : Str → List Str)

/-- `_insert_quote_block` (sentencizer.py:31-34): the tokens it appends. -/
def quoteBlock (quotes : List Str) (token : Str) : Except PyErr (List Str) := do
  let i ← intOf db (slice token 1 (-1))
  let q ← index quotes i
  return [c!"\""] ++ tok q ++ [c!"\""]

/-- Tokens appended for one token of a bracket (sentencizer.py:54-58). -/
def nestedToken (quotes : List Str) (token : Str) : Except PyErr (List Str) :=
  if token.head? = some '༺' then quoteBlock db tok quotes token else .ok [token]

/-- Tokens appended for one token of a sentence (sentencizer.py:48-61). -/
def sentToken (quotes brackets : List Str) (token : Str) : Except PyErr (List Str) :=
  if token.head? = some '༺' then quoteBlock db tok quotes token
  else if token.head? = some '⦅' then do
    let i ← intOf db (slice token 1 (-1))
    let b ← index brackets i
    let inner ← (tok b).mapM (nestedToken db tok quotes)
    return [c!"("] ++ inner.flatten ++ [c!")"]
  else .ok [token]

/-- `Sentencizer.__call__` (sentencizer.py:26-63); the tokenizer is an argument of the constructor. -/
def sentencize (text : Str) : Except PyErr (List (List Str)) := do
  let blocks := (reNewline.split db text).map (sanitize db sentSanitization)
  let (blocks, quotes) := findBlocksAll db reQuote '༺' '༻' blocks []
  let (blocks, brackets) := findBlocksAll db reBracket '⦅' '⦆' blocks []
  let sents := blocks.flatMap fun block => splitSentences db (tok block)
  sents.mapM fun sent => do
    let parts ← sent.mapM (sentToken db tok quotes brackets)
    return parts.flatten

end

end Model
